import Verif.Lemmas.Cll

/-!
# C21, C34
-/

namespace Jvotci

open Spec

/-- **C21.** What `get_lujvo` returns ends in a vowel, or in a consonant if a cmevla was asked for. -/
theorem C21_last_letter {b : Build} {s : Settings} {g : Bool} {t : Tanru} {r : Str × Int × List (Nat × Nat)}
    (h : getLujvoWithAnalytics b s g t = .ok r) :
    ∃ l, r.1.getLast? = some l ∧ if g then Consonant l else Vowel l := by
  obtain ⟨vs, -, h⟩ := bind_ok h
  obtain ⟨_, _, c, l, _, _, _, _, _, hl, hk, rfl, _⟩ := getLujvoFromList_ok h
  refine ⟨l, hl, ?_⟩
  rcases hk with ⟨h1, rfl⟩ | ⟨h1, rfl⟩
  · exact (isVowel_iff _).1 h1
  · exact (isConsonant_iff _).1 h1

/-- **C21** for `get_lujvo`. -/
theorem C21_last_letter_get_lujvo {b : Build} {s : Settings} {g : Bool} {t : Tanru} {r : Str}
    (h : getLujvo b s g t = .ok r) :
    ∃ l, r.getLast? = some l ∧ if g then Consonant l else Vowel l := by
  obtain ⟨x, hx, h⟩ := bind_ok h
  cases h
  exact C21_last_letter hx

example : getLujvoWithAnalytics .linked {} false (.str s%"lujvo zbasu") = .ok (s%"jvozba", 5858, [(0, 3), (3, 6)]) := by
  decide +kernel
example : getLujvo .pinned {} true (.str s%"lujvo zbasu") = .ok s%"jvozbas" := by decide +kernel

theorem getLujvoFromList_pinned {R : Rec} (hR : R.build = .pinned) {s : Settings} {g : Bool} {vs : List Str}
    {r : Str × Int × List (Nat × Nat)} (h : getLujvoFromList R s g vs = .ok r) : g = true := by
  obtain ⟨_, _, _, _, _, _, _, _, _, _, _, _, hs⟩ := getLujvoFromList_ok h
  cases g with
  | true => rfl
  | false =>
    have := hs rfl
    rw [slinkuhiInJvozba, hR] at this
    cases this

/-- **C34.** At the pinned commit `get_lujvo` returns nothing unless a cmevla is asked for. -/
theorem C34_no_lujvo_at_pinned (s : Settings) (t : Tanru) :
    (∀ r, getLujvo .pinned s false t ≠ .ok r) ∧ (∀ r, getLujvoWithAnalytics .pinned s false t ≠ .ok r) := by
  have h2 : ∀ r, getLujvoWithAnalytics .pinned s false t ≠ .ok r := by
    intro r h
    obtain ⟨vs, -, h⟩ := bind_ok h
    have := getLujvoFromList_pinned (recN_build _ _) h
    cases this
  refine ⟨fun r h => ?_, h2⟩
  obtain ⟨x, hx, h⟩ := bind_ok h
  exact h2 x hx

theorem join_getLast {arr : List Str} {p : Str} {l : Char} (h1 : arr.getLast? = some p) (h2 : p.getLast? = some l) :
    (join arr).getLast? = some l := by
  obtain ⟨t, rfl⟩ := List.getLast?_eq_some_iff.1 h1
  obtain ⟨u, rfl⟩ := List.getLast?_eq_some_iff.1 h2
  rw [join, List.flatten_append, List.flatten_singleton, ← List.append_assoc]
  simp

/-- **C34.** At the pinned commit `analyse_brivla` never answers LUJVO. -/
theorem C34_no_LUJVO_at_pinned (s : Settings) (w : Str) (ps : List Str) :
    analyseBrivla .pinned s w ≠ .ok (.lujvo, ps) := by
  intro h
  obtain ⟨n, hn, ha⟩ := analyseR_ok h
  generalize ht : BType.lujvo = t at ha
  cases ha with
  | gismu => cases ht
  | @kaha l _ hl _ _ hcv hj =>
    obtain ⟨h2, -, lp, l', r, hlp, hl', hr, -⟩ := jvokaha_ok hj
    have hj := (jvokaha2_ok h2).1
    have hll := join_getLast hlp hl'
    rw [hj, hl] at hll
    cases hll
    have := getLujvoFromList_pinned (recN_build _ _) hr
    rw [if_pos this] at ht
    cases ht
  | zihevla => cases ht
  | parts => split at ht <;> cases ht

/-- **C34.** Apart from calls that raise `NameError`, the missing import makes no difference. -/
theorem C34_import_changes_nothing_else :
    (∀ s w, analyseBrivla .pinned s w = .error .name ∨ analyseBrivla .pinned s w = analyseBrivla .linked s w) ∧
    (∀ s w, isBrivla .pinned s w = .error .name ∨ isBrivla .pinned s w = isBrivla .linked s w) ∧
    (∀ s g t, getLujvo .pinned s g t = .error .name ∨ getLujvo .pinned s g t = getLujvo .linked s g t) ∧
    (∀ s g t, getLujvoWithAnalytics .pinned s g t = .error .name ∨
      getLujvoWithAnalytics .pinned s g t = getLujvoWithAnalytics .linked s g t) ∧
    (∀ s w, getVeljvo .pinned s w = .error .name ∨ getVeljvo .pinned s w = getVeljvo .linked s w) ∧
    (∀ s w, scoreLujvo .pinned s w = .error .name ∨ scoreLujvo .pinned s w = scoreLujvo .linked s w) := by
  have h1 : ∀ s w, Rel .name (analyseBrivla .pinned s w) (analyseBrivla .linked s w) := by
    intro s w
    exact rel_analyseR (relRec_name _) s w
  have h2 : ∀ s w, Rel .name (isBrivla .pinned s w) (isBrivla .linked s w) := by
    intro s w
    unfold isBrivla
    rcases h1 s w with h | h
    · left; rw [h]
    · rw [h]; exact Rel.same
  have h3 : ∀ s g t, Rel .name (getLujvoWithAnalytics .pinned s g t) (getLujvoWithAnalytics .linked s g t) := by
    intro s g t
    exact Rel.bind Rel.same fun l => rel_getLujvoFromList (relRec_name _) s g l
  have h4 : ∀ s ps i p, Rel .name (formatPiece .pinned s ps i p) (formatPiece .linked s ps i p) := by
    intro s ps i p
    unfold formatPiece
    dsimp only
    split
    · exact Rel.same
    · refine Rel.bind Rel.same fun c => Rel.bind (Rel.ite (h2 _ _) Rel.same) fun y1 => Rel.ite Rel.same
        (Rel.bind (h2 _ _) fun y2 => Rel.ite Rel.same (Rel.bind (Rel.ite (h2 _ _) Rel.same) fun _ => Rel.same))
  have h5 : ∀ s ps qs i, Rel .name (selrafsiFrom .pinned s ps i qs) (selrafsiFrom .linked s ps i qs) := by
    intro s ps qs
    induction qs with
    | nil => intro i; exact Rel.same
    | cons q qs ih =>
      intro i
      unfold selrafsiFrom
      exact Rel.ite (ih _) (Rel.bind (h4 _ _ _ _) fun a => Rel.bind (ih _) fun _ => Rel.same)
  have h6 : ∀ s w, Rel .name (getVeljvo .pinned s w) (getVeljvo .linked s w) := by
    intro s w
    exact Rel.bind (h1 s w) fun x => Rel.ite Rel.same (h5 _ _ _ _)
  refine ⟨h1, h2, fun s g t => Rel.bind (h3 s g t) fun _ => Rel.same, h3, h6, fun s w => ?_⟩
  exact Rel.bind (h6 s w) fun _ => Rel.bind (h1 s w) fun _ => Rel.same

example : getLujvo .pinned {} false (.str s%"lujvo zbasu") = .error .name := by decide +kernel
example : getLujvo .linked {} false (.str s%"lujvo zbasu") = .ok s%"jvozba" := by decide +kernel
example : analyseBrivla .pinned {} s%"jvozba" = .error .name := by decide +kernel

end Jvotci
