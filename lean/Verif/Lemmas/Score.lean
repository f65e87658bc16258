import Verif.Lemmas.NoY
import Verif.Lemmas.Layout

/-!
# Helper lemmas: the sum over the pieces that `score_lujvo` takes (C35, C44)
-/

namespace Jvotci

open Spec

/-- Taking hyphen letters off the ends does not change the shape score. -/
def BareEnds (p : Str) : Prop := shapeScore (stripHyphens p) = shapeScore p

instance : DecidablePred BareEnds := fun _ => inferInstanceAs (Decidable (_ = _))

theorem bare_ends {x : Str} (h0 : x ≠ []) (h1 : ∀ c, x.head? = some c → isHyphenLetter c = false)
    (h2 : ∀ c, x.getLast? = some c → isHyphenLetter c = false) : BareEnds x := by
  unfold BareEnds stripHyphens
  have := stripBoth_clean (p := isHyphenLetter) (x := x) (t := []) h1 h2 h0 rfl
  rw [List.append_nil] at this
  rw [this]

theorem bare_rafsi {mz : Bool} {x : Str} (h : Rafsi mz x) : BareEnds x := by
  refine bare_ends (rafsi_ne_nil h) ?_ ?_
  · intro c hc
    obtain ⟨a, t, rfl, ha⟩ := rafsi_first h
    cases hc
    exact hyphenLetter_false (.inr ((isConsonant_iff _).1 ha))
  · intro c hc
    exact hyphenLetter_false (rafsi_last? h hc)

theorem bare_hyphen {p : Str} (h : Hyphen p) : BareEnds p := by
  simp only [Hyphen, List.mem_cons, List.not_mem_nil, or_false] at h
  rcases h with rfl | rfl | rfl | rfl | rfl | rfl <;> decide

theorem Chop.bare {y : YHyphens} {mz : Bool} {prev : Option Str} {ps : List Str} (h : Chop y mz prev ps) :
    ∀ p ∈ ps, BareEnds p := by
  intro p hp
  obtain ⟨u, v, e⟩ := List.append_of_mem hp
  rcases h.cut e with h | h
  · exact bare_hyphen h
  · exact bare_rafsi h.1.rafsi

def BareEndsParts (st : AState) : Prop :=
  (∀ p ∈ st.resultParts, BareEnds p) ∧ (st.nextHyphen = [] ∨ st.nextHyphen = s%"'")

theorem analysePart_bare {R : Rec} {ctx : ACtx} {i : Nat} {part0 : Str} {st st' : AState}
    (h : analysePart R ctx i part0 st = .ok st') (hy : 'y' ∉ part0) (hp : BareEndsParts st) : BareEndsParts st' := by
  obtain ⟨part, lead, hs, hcase⟩ := analysePart_ok h
  obtain ⟨hne, h0, hlead, hlead'⟩ := stripLeadingH_ok hs
  have hyp : 'y' ∉ part := by
    intro hm; apply hy; rw [h0]; cases lead <;> simp [hm]
  have hfirst : ∀ c, part.head? = some c → isHyphenLetter c = false := by
    intro c hc
    cases part with
    | nil => cases hc
    | cons a t =>
      cases hc
      cases lead with
      | true =>
        obtain ⟨v, t', e, hv⟩ := hlead rfl
        cases e
        exact hyphenLetter_false (.inl ((isVowel_iff _).1 hv))
      | false =>
        have h1 := (hlead' rfl).1 _ _ rfl
        have h2 : c ≠ 'y' := by rintro rfl; simp at hyp
        simp [isHyphenLetter, h1, h2]
  have hw : ∀ p ∈ withHyphen i st lead, BareEnds p := by
    intro p hpm
    unfold withHyphen at hpm
    split at hpm
    · exact hp.1 p hpm
    · rcases List.mem_append.1 hpm with h | h
      · exact hp.1 p h
      · simp only [List.mem_singleton] at h
        rw [h]
        unfold hyphenBefore BareEnds
        by_cases hi : i = 0
        · rcases hp.2 with e | e <;> cases lead <;> simp only [hi, e] <;> decide
        · rcases hp.2 with e | e <;> cases lead <;> simp [hi, e] <;> decide
  have hadd : ∀ G : List Str, (∀ p ∈ G, BareEnds p) → ∀ p ∈ withHyphen i st lead ++ G, BareEnds p := by
    intro G hG p hpm
    rcases List.mem_append.1 hpm with h | h
    · exact hw p h
    · exact hG p h
  rcases hcase with ⟨hcvc, rfl⟩ | ⟨-, c0, f, found, did, hc0, hf, hfd, hcase⟩
  · refine ⟨hadd [part] ?_, .inl rfl⟩
    obtain ⟨a, b, c, rfl, ha, hb, hc⟩ := tarmi_cvc.1 hcvc
    intro p hp
    simp only [List.mem_singleton] at hp
    subst hp
    refine bare_ends (by simp) hfirst ?_
    intro d hd
    simp at hd
    subst hd
    exact hyphenLetter_false (.inr (by simpa [isConsonant_iff] using hc))
  · obtain ⟨hpart, -, -, -, htr, htr', -, hcr, -⟩ := partForm_ok hf
    have hyc : 'y' ∉ f.partCopy := by
      intro hm; apply hyp; rw [hpart]; simp [hm]
    have hnh : (if f.trailingH then s%"'" else ([] : Str)) = [] ∨ (if f.trailingH then s%"'" else ([] : Str)) = s%"'" := by
      cases f.trailingH <;> simp
    rcases hcase with ⟨hd, -, -, rfl⟩ | ⟨hd, shape, p0, -, -, -, rfl⟩
    · subst hd
      have hcan : f.canBeRafsi = true := by
        cases hcb : f.canBeRafsi with
        | true => rfl
        | false => rw [hcb] at hfd; simp at hfd
      rw [if_pos hcan] at hfd
      exact ⟨hadd _ (jvokaha2_ok ((tryKaha_ok hfd).1 rfl).1).2.bare, hnh⟩
    · refine ⟨hadd [f.partCopy] ?_, hnh⟩
      intro p hp
      simp only [List.mem_singleton] at hp
      subst hp
      have hnc : f.partCopy ≠ [] := by
        intro e
        cases ht : f.trailingH with
        | true => obtain ⟨l, hl, -⟩ := htr ht; rw [e] at hl; cases hl
        | false => rw [ht, e] at hpart; exact hne hpart
      refine bare_ends hnc ?_ ?_
      · intro c hc
        refine hfirst c ?_
        rw [hpart, List.head?_append, hc]; rfl
      · intro c hc
        cases ht : f.trailingH with
        | true =>
          obtain ⟨l, hl, hv⟩ := htr ht
          rw [hc] at hl; cases hl
          exact hyphenLetter_false (.inl ((isVowel_iff _).1 hv))
        | false =>
          have h1 := htr' ht
          rw [ht] at hpart
          simp only [Bool.false_eq_true, if_false, List.append_nil] at hpart
          rw [hpart, hc] at h1
          have h2 : c ≠ 'y' := by rintro rfl; exact hyc (List.mem_of_getLast? hc)
          have h3 : c ≠ '\'' := by rintro rfl; exact h1 rfl
          simp [isHyphenLetter, h3, h2]

theorem analyseLoop_bare {R : Rec} {ctx : ACtx} : ∀ {parts : List Str} {i : Nat} {st st' : AState},
    analyseLoop R ctx i parts st = .ok st' → (∀ p ∈ parts, 'y' ∉ p) → BareEndsParts st → BareEndsParts st' := by
  intro parts
  induction parts with
  | nil => intro i st st' h _ hp; cases h; exact hp
  | cons p ps ih =>
    intro i st st' h hy hp
    unfold analyseLoop at h
    obtain ⟨st1, h1, h2⟩ := bind_ok h
    exact ih h2 (fun q hq => hy q (by simp [hq])) (analysePart_bare h1 (hy p (by simp)) hp)

theorem Accepts.bare {R : Rec} {s : Settings} {w : Str} {t : BType} {ps : List Str} (h : Accepts R s w t ps)
    (ht : t ≠ .gismu ∧ t ≠ .zihevla) : ∀ p ∈ ps, BareEnds p := by
  cases h with
  | gismu => exact absurd rfl ht.1
  | kaha hl _ _ hcv hj => exact (jvokaha_made hj).2.1.bare
  | zihevla => exact absurd rfl ht.2
  | parts hc0 hl hc _ _ hcv _ _ hlen hst =>
    exact (analyseLoop_bare hst (splitOn_not_mem 'y' w) ⟨by simp, .inl rfl⟩).1

theorem pieceScore_bare {p : Str} (h : BareEnds p) :
    pieceScore p = weight p - 10 * (shapeScore p : Int) - if p = s%"y" then 100 else 0 := by
  unfold pieceScore
  split
  · rename_i hp
    rcases hp with rfl | rfl | rfl | rfl <;> decide
  · rename_i hp
    rw [score_weight, h, if_neg (fun e => hp (.inl e))]
    omega

theorem pieceScore_sum {ps : List Str} (h : ∀ p ∈ ps, BareEnds p) :
    (ps.map pieceScore).sum = weight ps.flatten - 10 * (((ps.map shapeScore).sum : Nat) : Int) - 100 * (ps.count s%"y" : Int) := by
  induction ps with
  | nil => rfl
  | cons p ps ih =>
    have ih := ih (fun q hq => h q (List.mem_cons_of_mem _ hq))
    simp only [List.map_cons, List.sum_cons, List.flatten_cons, weight_append, List.count_cons]
    rw [ih, pieceScore_bare (h p (by simp))]
    by_cases hp : p = s%"y" <;> simp [hp] <;> omega

/-- Hyphens have no shape score. -/
theorem shapes_filter (ps : List Str) : (ps.map shapeScore).sum = ((ps.filter (fun p => ¬ Hyphen p)).map shapeScore).sum := by
  induction ps with
  | nil => rfl
  | cons p ps ih =>
    by_cases hp : Hyphen p
    · rw [List.filter_cons_of_neg (by simpa using hp), List.map_cons, List.sum_cons, ih]
      have : shapeScore p = 0 := by
        simp only [Hyphen, List.mem_cons, List.not_mem_nil, or_false] at hp
        rcases hp with rfl | rfl | rfl | rfl | rfl | rfl <;> decide
      omega
    · rw [List.filter_cons_of_pos (by simpa using hp), List.map_cons, List.sum_cons, ih, List.map_cons, List.sum_cons]

end Jvotci
