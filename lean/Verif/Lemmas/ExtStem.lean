import Verif.Lemmas.ZihExp
import Verif.Lemmas.Segregate

/-!
# Helper lemmas: the parts of an extended lujvo, read as rafsi
-/

namespace Jvotci

open Spec

/-! ## Strings without y -/

theorem chop_no_y {y : YHyphens} {mz : Bool} {prev : Option Str} {ps : List Str} (h : Chop y mz prev ps) (hy : 'y' ∉ join ps) :
    (∀ q v, ps = q :: v → Hyphen q → ∃ p, prev = some p ∧ p.length ≠ 1) ∧
    (∀ u p q v, ps = u ++ p :: q :: v → ¬ (Hyphen p ∧ Hyphen q)) := by
  have key : ∀ {x : Str} {ps : List Str}, x.length = 1 →
      (∀ q v, ps = q :: v → Hyphen q → ∃ p, some x = some p ∧ p.length ≠ 1) →
      (∀ u p q v, ps = u ++ p :: q :: v → ¬ (Hyphen p ∧ Hyphen q)) → ∀ u p q v, x :: ps = u ++ p :: q :: v → ¬ (Hyphen p ∧ Hyphen q) := by
    rintro x ps hx h1 h2 u p q v e ⟨hp, hq⟩
    cases u with
    | nil =>
      simp at e
      obtain ⟨rfl, rfl⟩ := e
      obtain ⟨p, e, hl⟩ := h1 q v rfl hq
      cases e
      exact hl hx
    | cons a u =>
      simp at e
      exact h2 u p q v e.2 ⟨hp, hq⟩
  induction h with
  | nil => simp
  | y => simp [join] at hy
  | hy => simp [join] at hy
  | n hp _ _ _ _ ih =>
    obtain ⟨h1, h2⟩ := ih (by intro h; exact hy (by simp only [join, List.flatten_cons, List.mem_append] at h ⊢; exact .inr h))
    exact ⟨fun q v e _ => ⟨_, rfl, hp⟩, key rfl h1 h2⟩
  | r hp _ _ _ _ _ _ ih =>
    obtain ⟨h1, h2⟩ := ih (by intro h; exact hy (by simp only [join, List.flatten_cons, List.mem_append] at h ⊢; exact .inr h))
    exact ⟨fun q v e _ => ⟨_, rfl, hp⟩, key rfl h1 h2⟩
  | @rafsi prev p ps hc _ ih =>
    obtain ⟨-, h2⟩ := ih (by intro h; exact hy (by simp only [join, List.flatten_cons, List.mem_append] at h ⊢; exact .inr h))
    have hnp : ¬ Hyphen p := rafsi_not_hyphen hc.rafsi
    refine ⟨?_, ?_⟩
    · rintro q v e hq
      cases e
      exact absurd hq hnp
    · rintro u x q v e ⟨hx, hq⟩
      cases u with
      | nil => simp at e; exact hnp (e.1 ▸ hx)
      | cons a u => simp at e; exact h2 u x q v e.2 ⟨hx, hq⟩

/-- On strings without y, cutting finds the reading if there is one. -/
theorem reading_iff {y : YHyphens} {mz : Bool} {w : Str} {ps : List Str} (hw : w ≠ []) (hy : 'y' ∉ w) :
    jvokaha2 y mz w = .ok ps ↔ Reading y mz ps ∧ ps.flatten = w := by
  constructor
  · intro h
    obtain ⟨hj, hch⟩ := jvokaha2_ok h
    obtain ⟨-, hn⟩ := chop_no_y hch (by rw [hj]; exact hy)
    have := C37_only_readings h hw (fun p hp => by
      have hne : ps ≠ [] := by rintro rfl; cases hp
      obtain ⟨u, q, rfl, hq⟩ := chop_last hch (by rw [hj]; exact hy) hne
      simp at hp
      subst hp
      exact rafsi_not_hyphen hq.rafsi) hn
    exact ⟨this.2, this.1⟩
  · rintro ⟨h, rfl⟩
    exact C37_reading_found h

theorem cut_errs {y : YHyphens} {mz : Bool} {w : Str} (hy : 'y' ∉ w) :
    Errs [.decomposition, .invalidCluster, .index] (jvokaha2 y mz w) := by
  have key : ∀ {fuel : Nat} {l : Str} {res : List Str}, l.length < fuel →
      Errs (.index :: caughtErrs) (jvokaha2Loop y mz w fuel l res) := by
    intro fuel
    induction fuel with
    | zero => intro l res h; omega
    | succ fuel ih =>
      intro l res hlen
      unfold jvokaha2Loop
      refine .ite (fun _ => .ok) fun hne => .bind ?_ fun o ho => ?_
      · refine (index_takeHyphen y l res).mono (by simp)
      · have hpos : 0 < l.length := List.length_pos_iff.2 hne
        split
        · rename_i hy
          obtain ⟨p, ps, rfl, hp, hcase⟩ := takeHyphen_some ho
          apply ih
          have : 0 < hy.length := by
            rcases hcase with ⟨rfl, _⟩ | ⟨rfl, _⟩ | ⟨rfl, _⟩ | ⟨rfl, _⟩ <;> simp
          rw [List.length_drop]
          omega
        · refine .bind ((caught_takeRafsi fun _ _ => slice_no_y hy).mono (by simp +contextual)) fun cut hcut => ?_
          rcases takeRafsi_ok hcut with ⟨p, rest, he, hc, rfl⟩ | ⟨p, rest, he, hp, hc, rfl⟩ | ⟨hc, rfl⟩
          · dsimp only
            apply ih
            have := congrArg List.length he
            rw [List.length_append] at this
            have := hc.length_pos
            omega
          · dsimp only
            apply ih
            have := congrArg List.length he
            simp only [List.length_append, List.length_cons] at this
            have := hc.length_pos
            omega
          · exact .ok
  exact (key (Nat.lt_succ_self _)).mono (by simp [caughtErrs])

theorem reading_pieces {y : YHyphens} {mz : Bool} {ps : List Str} (h : Reading y mz ps) : ∀ p ∈ ps, Hyphen p ∨ Rafsi mz p := by
  intro p hp
  obtain ⟨u, v, rfl⟩ := List.append_of_mem hp
  rcases List.eq_nil_or_concat u with rfl | ⟨u, x, rfl⟩
  · obtain ⟨q, hq, hr⟩ := h.first
    simp at hq
    subst hq
    exact .inr hr
  · have := h.links u x p v (by simp)
    generalize hx : x = x' at this
    generalize hpp : p = p' at this ⊢
    cases this with
    | rafsi _ h => exact .inr h
    | y => exact .inl (by decide)
    | apostropheY => exact .inl (by decide)
    | rOrN _ _ _ hh =>
      simp at hh
      rcases hh with rfl | rfl <;> exact .inl (by decide)
    | afterY _ h => exact .inr h
    | afterR h => exact .inr h
    | afterN h => exact .inr h

theorem reading_piece_letters {y : YHyphens} {mz : Bool} {ps : List Str} (h : Reading y mz ps) (hy : 'y' ∉ ps.flatten) :
    ∀ c ∈ ps.flatten, Vowel c ∨ Consonant c ∨ c = '\'' := by
  intro c hc
  obtain ⟨p, hp, hcp⟩ := List.mem_flatten.1 hc
  rcases reading_pieces h p hp with hh | hr
  · rcases hyphen_no_y hh (fun h => hy (List.mem_flatten.2 ⟨p, hp, h⟩)) with rfl | rfl <;> simp at hcp <;> subst hcp <;> exact .inr (.inl (by decide))
  · exact rafsi_letters hr c hcp

theorem reading_ne {y : YHyphens} {mz : Bool} {ps : List Str} (h : Reading y mz ps) : ps.flatten ≠ [] := by
  obtain ⟨p, hp, hr⟩ := h.first
  cases ps with
  | nil => cases hp
  | cons q ps =>
    cases hp
    have := rafsi_ne hr
    simp [this]

theorem reading_last {y : YHyphens} {mz : Bool} {ps : List Str} (h : Reading y mz ps) :
    ∃ u p, ps = u ++ [p] ∧ Rafsi mz p := by
  obtain ⟨p, hp, hr⟩ := h.last
  obtain ⟨u, rfl⟩ := List.getLast?_eq_some_iff.1 hp
  exact ⟨u, p, rfl, hr⟩

/-! ## The a put back -/

/-- No compound of rafsi ends in a after another vowel. -/
theorem reading_not_va {y : YHyphens} {mz : Bool} {ps : List Str} {x : Str} (h : Reading y mz ps) (e : ps.flatten = x ++ s%"a") {c : Char}
    (hc : x.getLast? = some c) : ¬ Vowel c := by
  intro hv
  obtain ⟨x, rfl⟩ := List.getLast?_eq_some_iff.1 hc
  obtain ⟨u, p, rfl, hp⟩ := reading_last h
  have e : u.flatten ++ p = x ++ [c, 'a'] := by simpa using e
  have hd := h.diphthongs p (by simp)
  have h3 := rafsi_length hp
  obtain ⟨z, hz⟩ : ∃ z, p = z ++ [c, 'a'] := by
    rcases List.append_eq_append_iff.1 e with ⟨z, _, hz⟩ | ⟨z, _, hz⟩
    · exact ⟨z, hz⟩
    · have := congrArg List.length hz
      simp at this
      omega
  have two : ∀ {a b : Char} {z : Str}, [a, b] = z ++ [c, 'a'] → b = 'a' ∧ a = c := by
    intro a b z e
    have := congrArg List.reverse e
    simp at this
    exact ⟨this.1, this.2.1⟩
  cases hp with
  | @cvv a b d ha hb hdv =>
    match z, hz with
    | [z], hz =>
      cases hz
      have := hd _ _ _ rfl hb hdv
      simp at this
    | [], hz => cases hz
    | _ :: _ :: z, hz => have := congrArg List.length hz; simp at this
  | @cvhv a b d ha hb hdv =>
    have := congrArg List.reverse hz
    simp at this
    rw [← this.2.1] at hv
    exact apos_not_vowel hv
  | @cvc a b d ha hb hdv =>
    have := congrArg List.reverse hz
    simp at this
    rw [this.1] at hdv
    revert hdv; decide
  | @ccv a b d hab hdv =>
    have := congrArg List.reverse hz
    simp at this
    rw [← this.2.1] at hv
    exact vowel_not_consonant hv (initial_consonants hab).2
  | @cvcc a b d f ha hb hp =>
    have := congrArg List.reverse hz
    simp at this
    have h4 := hp.2.1
    rw [this.1] at h4
    revert h4; decide
  | @ccvc a b d f hab hdv hf =>
    have := congrArg List.reverse hz
    simp at this
    rw [this.1] at hf
    revert hf; decide
  | gismu hg =>
    cases hg with
    | cvccv _ _ hp _ =>
      have := congrArg List.reverse hz
      simp at this
      rw [← this.2.1] at hv
      exact vowel_not_consonant hv hp.2.1
    | ccvcv _ _ hdc _ =>
      have := congrArg List.reverse hz
      simp at this
      rw [← this.2.1] at hv
      exact vowel_not_consonant hv hdc

/-- tools.py:368-375. -/
def stemCheck (ctx : ACtx) (partA : Str) : Except Err Unit :=
  if ¬ (s%"'a").isSuffixOf partA ∧ !isGismu ctx.s.allowMz (lastN partA 5) then
    match (program .linked).analyse { yHyphens := ctx.s.yHyphens, allowMz := ctx.s.allowMz } partA with
    | .error .notBrivla => Except.ok ()
    | .error e => .error e
    | .ok (t, _) => if t = .lujvo then .error .notBrivla else .ok ()
  else Except.ok ()

theorem lastN_gismu {mz : Bool} {w : Str} : isGismu mz (lastN w 5) = true ↔ ∃ x g, Gismu mz g ∧ w = x ++ g := by
  rw [isGismu_iff]
  constructor
  · intro h
    exact ⟨w.take (w.length - 5), lastN w 5, h, by simp [lastN]⟩
  · rintro ⟨x, g, hg, rfl⟩
    have := gismu_five hg
    have e : lastN (x ++ g) 5 = g := by simp [lastN, this]
    rw [e]
    exact hg

/-- After 'y is cut off, nothing is missing. -/
theorem stemCheck_trail {ctx : ACtx} {x : Str} : stemCheck ctx (x ++ s%"'" ++ s%"a") = .ok () := by
  unfold stemCheck
  rw [if_neg]
  rintro ⟨h, -⟩
  apply h
  rw [List.isSuffixOf_iff_suffix]
  exact ⟨x, by simp⟩

theorem stemCheck_iff {ctx : ACtx} {x : Str} (hx : ∀ c ∈ x, Vowel c ∨ Consonant c ∨ c = '\'') (hl : ∃ c, x.getLast? = some c ∧ (Vowel c ∨ Consonant c))
    (hlen : x.length < 10 ^ 94) : stemCheck ctx (x ++ s%"a") = .ok () ↔ StemOk ctx.s x := by
  obtain ⟨c, hc, hcv⟩ := hl
  have hxa : ∀ d ∈ x ++ s%"a", Vowel d ∨ Consonant d ∨ d = '\'' := by
    intro d hd
    rcases List.mem_append.1 hd with hd | hd
    · exact hx d hd
    · simp at hd; subst hd; exact .inl (by decide)
  have hr := reading_letters hxa
  have hya : 'y' ∉ x ++ s%"a" := by
    intro h
    rcases hxa _ h with h | h | h <;> revert h <;> decide
  have hsuf : ¬ (s%"'a").isSuffixOf (x ++ s%"a") := by
    rw [List.isSuffixOf_iff_suffix]
    rintro ⟨t, ht⟩
    have : t ++ s%"'" = x := List.append_cancel_right (bs := s%"a") (by simpa using ht)
    rw [← this] at hc
    simp at hc
    subst hc
    rcases hcv with h | h <;> revert h <;> decide
  have hlen' : (x ++ s%"a").length < 10 ^ 95 := by
    have : (10 : Nat) ^ 95 = 10 * 10 ^ 94 := by rw [Nat.pow_succ, Nat.mul_comm]
    simp only [List.length_append, List.length_cons, List.length_nil]
    omega
  have key : (∃ ps, (program .linked).analyse { yHyphens := ctx.s.yHyphens, allowMz := ctx.s.allowMz } (x ++ s%"a") = .ok (.lujvo, ps)) ↔
      ∃ ps, LujvoPieces { yHyphens := ctx.s.yHyphens, allowMz := ctx.s.allowMz } ps ∧ ps.flatten = x ++ s%"a" := by
    rw [program_analyse]
    simp only [C41_lujvo hlen', hr, and_comm]
  have hclean := clean_program (s := { yHyphens := ctx.s.yHyphens, allowMz := ctx.s.allowMz }) (v := x ++ s%"a") (by simp) hya
    (fun d hd => (readChar_letter (hxa d hd)).1)
  unfold stemCheck StemOk
  constructor
  · intro h _ qs hq e
    rw [← lastN_gismu]
    cases hg : isGismu ctx.s.allowMz (lastN (x ++ s%"a") 5) with
    | true => rfl
    | false =>
      exfalso
      rw [if_pos ⟨hsuf, by rw [hg]; rfl⟩] at h
      obtain ⟨ps, hps⟩ := key.2 ⟨qs, hq, e⟩
      rw [hps] at h
      simp at h
  · intro h
    split
    · rename_i hg
      obtain ⟨-, hg⟩ := hg
      cases ha : (program .linked).analyse { yHyphens := ctx.s.yHyphens, allowMz := ctx.s.allowMz } (x ++ s%"a") with
      | error e =>
        have := hclean e ha
        simp at this
        subst this
        rfl
      | ok r =>
        obtain ⟨t, ps⟩ := r
        dsimp only
        rw [if_neg]
        rintro rfl
        obtain ⟨qs, hq, e⟩ := key.1 ⟨ps, ha⟩
        have hcc : Consonant c := hcv.resolve_left (reading_not_va hq.reading e hc)
        have := lastN_gismu.2 (h ⟨c, hc, hcc⟩ qs hq e)
        rw [this] at hg
        cases hg
    · rfl

end Jvotci
