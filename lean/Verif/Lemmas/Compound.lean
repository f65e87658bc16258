import Verif.Lemmas.Pieces

/-!
# Helper lemmas: the pieces of a compound word
-/

namespace Jvotci

open Spec

/-- `Q` holds of any two consecutive pieces. -/
def PAdj (Q : Str → Str → Prop) : List Str → Prop
  | a :: b :: t => Q a b ∧ PAdj Q (b :: t)
  | _ => True

theorem PAdj.tail {Q : Str → Str → Prop} {a : Str} {t : List Str} (h : PAdj Q (a :: t)) : PAdj Q t := by
  cases t with
  | nil => trivial
  | cons b t => exact h.2

theorem PAdj.append {Q : Str → Str → Prop} {u v : List Str} (hu : PAdj Q u) (hv : PAdj Q v)
    (h : ∀ a b, u.getLast? = some a → v.head? = some b → Q a b) : PAdj Q (u ++ v) := by
  induction u with
  | nil => exact hv
  | cons a u ih =>
    cases u with
    | nil =>
      cases v with
      | nil => trivial
      | cons b v => exact ⟨h a b rfl rfl, hv⟩
    | cons b u =>
      refine ⟨hu.1, ih hu.2 ?_⟩
      intro x y hx hy
      exact h x y (by rw [List.getLast?_cons_cons]; exact hx) hy

theorem PAdj.get {Q : Str → Str → Prop} {a b : Str} : ∀ {u v : List Str}, PAdj Q (u ++ a :: b :: v) → Q a b := by
  intro u
  induction u with
  | nil => intro v h; exact h.1
  | cons x u ih => intro v h; exact ih (PAdj.tail h)

theorem PAdj.all {Q : Str → Str → Prop} (h : ∀ a b, Q a b) : ∀ ps, PAdj Q ps := by
  intro ps
  induction ps with
  | nil => trivial
  | cons a t ih =>
    cases t with
    | nil => trivial
    | cons b t => exact ⟨h a b, ih⟩

theorem PAdj.of_mem {Q : Str → Str → Prop} {ps : List Str} (h : ∀ a b, b ∈ ps → Q a b) : PAdj Q ps := by
  induction ps with
  | nil => trivial
  | cons a t ih =>
    cases t with
    | nil => trivial
    | cons b t => exact ⟨h a b (by simp), ih (fun a b hb => h a b (by simp [hb]))⟩

/-- `arr` is `corr` with some `r`s and `n`s put in. -/
inductive Skips : List Str → List Str → Prop
  | nil : Skips [] []
  | same {p c r} : Skips c r → Skips (p :: c) (p :: r)
  | skip {o p c r} : (o = s%"r" ∨ o = s%"n") → Skips c r → Skips (p :: c) (o :: p :: r)

theorem comparePiecesLoop_ok {other : List Str} : ∀ {corr : List Str} {i : Nat},
    comparePiecesLoop other corr i = .ok true → Skips corr (other.drop i) := by
  intro corr
  induction corr with
  | nil =>
    intro i h
    simp [comparePiecesLoop] at h
    rw [h, List.drop_length]
    exact .nil
  | cons p corr ih =>
    intro i h
    unfold comparePiecesLoop at h
    split at h
    · cases h
    · rename_i o ho
      obtain ⟨hi, hoi⟩ := List.getElem?_eq_some_iff.1 ho
      have hd : other.drop i = o :: other.drop (i + 1) := by rw [← hoi]; exact List.drop_eq_getElem_cons hi
      split at h
      · rename_i he
        subst he
        rw [hd]
        exact .same (ih h)
      · rename_i hne
        have key : ∀ sk : Bool, (sk = true → o = s%"r" ∨ o = s%"n") →
            (match other[if sk then i + 1 else i]? with
              | none => Except.error Err.index
              | some o => if p = o then comparePiecesLoop other corr ((if sk then i + 1 else i) + 1) else .ok false) = .ok true →
            Skips (p :: corr) (other.drop i) := by
          intro sk hor h
          cases sk with
          | false =>
            simp only [Bool.false_eq_true, if_false] at h
            rw [ho] at h
            simp [hne] at h
          | true =>
            simp only [if_true] at h
            split at h
            · cases h
            · rename_i o' ho'
              split at h
              · rename_i he
                subst he
                obtain ⟨hi', hoi'⟩ := List.getElem?_eq_some_iff.1 ho'
                have hd' : other.drop (i + 1) = p :: other.drop (i + 1 + 1) := by rw [← hoi']; exact List.drop_eq_getElem_cons hi'
                rw [hd, hd']
                exact .skip (hor rfl) (ih h)
              · cases h
        refine key _ ?_ h
        intro hsk
        simp only [Bool.and_eq_true, Bool.or_eq_true, decide_eq_true_eq] at hsk
        exact hsk.1.1.2

theorem compareLujvoPieces_ok {corr arr : List Str} (h : compareLujvoPieces corr arr = .ok true) : Skips corr arr := by
  have := comparePiecesLoop_ok h
  simpa using this

theorem Skips.padj {Q : Str → Str → Prop} {corr arr : List Str} (h : Skips corr arr) (hc : PAdj Q corr)
    (hq : ∀ o p, (o = s%"r" ∨ o = s%"n") → Q o p ∧ Q p o) : PAdj Q arr := by
  induction h with
  | nil => trivial
  | @same p c r h ih =>
    cases h with
    | nil => trivial
    | same h => exact ⟨hc.1, ih hc.2⟩
    | skip ho h => exact ⟨(hq _ _ ho).2, ih hc.2⟩
  | @skip o p c r ho h ih =>
    refine ⟨(hq _ _ ho).1, ?_⟩
    cases h with
    | nil => trivial
    | same h => exact ⟨hc.1, ih hc.2⟩
    | skip ho h => exact ⟨(hq _ _ ho).2, ih hc.2⟩

/-- Consecutive pieces as in a reading of a string made by the search. -/
def PairMade (p q : Str) : Prop :=
  p = s%"r" ∨ p = s%"n" ∨ q = s%"r" ∨ q = s%"n" ∨
  ((q = s%"'y" → ∃ l, p.getLast? = some l ∧ Vowel l) ∧
   ((q = s%"y" ∨ q = s%"'y") → p ≠ s%"y" ∧ p ≠ s%"'y"))

theorem Chop.pairMade {y : YHyphens} {mz : Bool} {prev : Option Str} {ps : List Str} (h : Chop y mz prev ps) :
    ∀ {p : Str}, prev = some p → p ≠ [] → AdjAll MadeOk (p ++ join ps) → PAdj PairMade (p :: ps) := by
  induction h with
  | nil => intro p _ _ _; trivial
  | @y p' ps hl _ ih =>
    intro p e hp hm
    cases e
    have hm' := adjAll_append.1 hm
    refine ⟨.inr (.inr (.inr (.inr ⟨by simp, fun _ => ⟨?_, ?_⟩⟩))), ih rfl (by simp) hm'.2.1⟩
    · rintro rfl; simp at hl
    · rintro rfl
      have := hm'.2.2 'y' 'y' rfl rfl
      exact absurd (this.2 rfl) (by decide)
  | @n p' ps t hl _ _ _ _ ih =>
    intro p e hp hm
    cases e
    exact ⟨.inr (.inr (.inr (.inl rfl))), ih rfl (by simp) (adjAll_append.1 hm).2.1⟩
  | @r p' ps c t hl _ _ _ _ _ _ ih =>
    intro p e hp hm
    cases e
    exact ⟨.inr (.inr (.inl rfl)), ih rfl (by simp) (adjAll_append.1 hm).2.1⟩
  | @hy p' ps hl _ _ ih =>
    intro p e hp hm
    obtain rfl : p' = p := by simpa using e
    have hm' := adjAll_append.1 hm
    have hlast : ∃ l, p'.getLast? = some l ∧ Vowel l := by
      refine ⟨p'.getLast hp, List.getLast?_eq_some_getLast hp, ?_⟩
      have := hm'.2.2 (p'.getLast hp) '\'' (List.getLast?_eq_some_getLast hp) rfl
      rcases this.1.1 rfl with h | h
      · exact h
      · exact absurd (this.2 h) (by decide)
    refine ⟨.inr (.inr (.inr (.inr ⟨fun _ => hlast, fun _ => ⟨?_, ?_⟩⟩))), ih rfl (by simp) hm'.2.1⟩
    · rintro rfl; obtain ⟨l, hl, hv⟩ := hlast; simp at hl; subst hl; exact absurd hv (by decide)
    · rintro rfl; obtain ⟨l, hl, hv⟩ := hlast; simp at hl; subst hl; exact absurd hv (by decide)
  | @rafsi prev q ps hc _ ih =>
    intro p e hp hm
    have hm' := adjAll_append.1 hm
    have hlen := hc.length_pos
    refine ⟨.inr (.inr (.inr (.inr ⟨?_, ?_⟩))), ih rfl (by rintro rfl; simp at hlen) hm'.2.1⟩
    · rintro rfl; simp at hlen
    · rintro (rfl | rfl) <;> simp at hlen

theorem jvokaha2_pairMade {y : YHyphens} {mz : Bool} {w : Str} {ps : List Str} (h : jvokaha2 y mz w = .ok ps)
    (hm : AdjAll MadeOk w) : PAdj PairMade ps := by
  obtain ⟨hj, hc⟩ := jvokaha2_ok h
  cases ps with
  | nil => trivial
  | cons p ps =>
    obtain ⟨hcut, hc⟩ := hc.head
    have hlen := hcut.length_pos
    refine hc.pairMade rfl (by rintro rfl; simp at hlen) ?_
    rw [← hj] at hm
    exact hm

/-- What an accepted lujvo is made of. -/
theorem jvokaha_made {R : Rec} {y : YHyphens} {co : Consonants} {g mz : Bool} {w : Str} {arr : List Str}
    (h : jvokaha R y co g mz w = .ok arr) :
    join arr = w ∧ Chop y mz none arr ∧ PAdj PairMade arr ∧ 2 ≤ (arr.filter (fun x => x.length > 2)).length := by
  obtain ⟨h2, hlen, lp, l, r, hlp, hl, hr, hgood⟩ := jvokaha_ok h
  obtain ⟨hj, hc⟩ := jvokaha2_ok h2
  obtain ⟨hm, h2l⟩ := getLujvoFromList_made hc.filter hr
  refine ⟨hj, hc, ?_, h2l⟩
  split at hgood
  · rw [hgood] at hm
    exact jvokaha2_pairMade h2 hm
  · obtain ⟨corr, hcorr, hcmp⟩ := hgood
    refine (compareLujvoPieces_ok hcmp).padj (jvokaha2_pairMade hcorr hm) ?_
    rintro o p (rfl | rfl)
    · exact ⟨.inl rfl, .inr (.inr (.inl rfl))⟩
    · exact ⟨.inr (.inl rfl), .inr (.inr (.inr (.inl rfl)))⟩

/-- Apostrophes in a word read as rafsi and hyphens. -/
theorem Chop.apos {y : YHyphens} {mz : Bool} {prev : Option Str} {ps : List Str} (h : Chop y mz prev ps)
    (hp : PAdj PairMade (prev.toList ++ ps)) :
    AdjAll AposOk (join ps) ∧ ((join ps).head? = some '\'' → ∃ p l, prev = some p ∧ p.getLast? = some l ∧ Vowel l) := by
  have cons1 : ∀ (c : Char) (w : Str), c ≠ '\'' → (c = 'y' ∨ w.head? ≠ some '\'') → AdjAll AposOk w → AdjAll AposOk (c :: w) := by
    intro c w hc hw ha
    cases w with
    | nil => exact adjAll_single
    | cons b w =>
      refine adjAll_cons.2 ⟨⟨?_, fun e => absurd e hc⟩, ha⟩
      rintro rfl
      rcases hw with hw | hw
      · exact .inr hw
      · exact absurd rfl hw
  induction h with
  | nil => exact ⟨adjAll_nil, by simp [join]⟩
  | @y p ps hl _ ih =>
    obtain ⟨h1, h2⟩ := ih hp.tail
    exact ⟨cons1 'y' _ (by decide) (.inl rfl) h1, by simp [join]⟩
  | @n p ps t hl _ _ hj _ ih =>
    obtain ⟨h1, h2⟩ := ih hp.tail
    refine ⟨cons1 'n' (join ps) (by decide) (.inr ?_) h1, by simp [join]⟩
    rw [hj]; simp
  | @r p ps c t hl _ _ hj hcc _ _ ih =>
    obtain ⟨h1, h2⟩ := ih hp.tail
    refine ⟨cons1 'r' (join ps) (by decide) (.inr ?_) h1, by simp [join]⟩
    rw [hj]; simp; rintro rfl; revert hcc; decide
  | @hy p ps hl _ _ ih =>
    obtain ⟨h1, h2⟩ := ih hp.tail
    refine ⟨adjAll_cons.2 ⟨⟨fun e => absurd e (by decide), fun _ => .inr rfl⟩, cons1 'y' (join ps) (by decide) (.inl rfl) h1⟩, ?_⟩
    intro _
    have := hp.1
    rcases this with rfl | rfl | e | e | ⟨h, -⟩
    · simp at hl
    · simp at hl
    · simp at e
    · simp at e
    · obtain ⟨l, hl, hv⟩ := h rfl
      exact ⟨p, l, rfl, hl, hv⟩
  | @rafsi prev p ps hc _ ih =>
    have hpp : PAdj PairMade (p :: ps) := by
      cases prev with
      | none => exact hp
      | some q => exact hp.2
    obtain ⟨h1, h2⟩ := ih hpp
    have hr := hc.rafsi
    have e : join (p :: ps) = p ++ join ps := rfl
    rw [e]
    refine ⟨adjAll_append.2 ⟨adjAll_mono (rafsi_made hr) (fun _ _ h => h.1), h1, ?_⟩, ?_⟩
    · intro a b ha hb
      refine ⟨?_, ?_⟩
      · rintro rfl
        obtain ⟨p', l, e, hl, hv⟩ := h2 hb
        cases e
        rw [ha] at hl; cases hl
        exact .inl hv
      · rintro rfl
        exact absurd (rafsi_last? hr ha) (by decide)
    · intro hh
      cases p with
      | nil => exact absurd rfl (rafsi_ne_nil hr)
      | cons a p => exact absurd (rafsi_head? hr hh) (by decide)

theorem rafsi_not_hyphen {mz : Bool} {p : Str} (h : Rafsi mz p) : ¬ Hyphen p := by
  intro hh
  have h1 := (rafsi_length h).1
  obtain ⟨a, t, rfl, ha⟩ := rafsi_first h
  simp only [Hyphen, List.mem_cons, List.not_mem_nil, or_false] at hh
  rcases hh with hh | hh | hh | hh | hh | hh <;> rw [hh] at h1 <;> simp at h1
  cases hh
  revert ha; decide

/-- No two hyphens in a row. -/
def NotBothHyphens (p q : Str) : Prop := ¬ (Hyphen p ∧ Hyphen q)

theorem Chop.hyphens {y : YHyphens} {mz : Bool} {prev : Option Str} {ps : List Str} (h : Chop y mz prev ps)
    (hp : PAdj PairMade (prev.toList ++ ps))
    (hprev : ∀ p, prev = some p → Hyphen p → p = s%"y" ∨ p = s%"n" ∨ p = s%"r" ∨ p = s%"'y") :
    PAdj NotBothHyphens (prev.toList ++ ps) := by
  induction h with
  | @nil prev => cases prev <;> trivial
  | @y p ps hl _ ih =>
    refine ⟨?_, ih hp.2 (by intro p e _; cases e; simp)⟩
    rintro ⟨h1, -⟩
    have := hp.1
    rcases hprev p rfl h1 with rfl | rfl | rfl | rfl
    · simp at hl
    · simp at hl
    · simp at hl
    · simp [PairMade] at this
  | @n p ps t hl _ ht hj _ ih =>
    refine ⟨?_, ih hp.2 (by intro p e _; cases e; simp)⟩
    rintro ⟨h1, -⟩
    rcases hprev p rfl h1 with rfl | rfl | rfl | rfl <;> revert ht <;> decide
  | @r p ps c t hl _ ht hj hcc _ _ ih =>
    refine ⟨?_, ih hp.2 (by intro p e _; cases e; simp)⟩
    rintro ⟨h1, -⟩
    rcases hprev p rfl h1 with rfl | rfl | rfl | rfl <;> revert ht <;> decide
  | @hy p ps hl _ _ ih =>
    refine ⟨?_, ih hp.2 (by intro p e _; cases e; simp)⟩
    rintro ⟨h1, -⟩
    have := hp.1
    rcases hprev p rfl h1 with rfl | rfl | rfl | rfl
    · simp at hl
    · simp at hl
    · simp at hl
    · simp [PairMade] at this
  | @rafsi prev p ps hc _ ih =>
    have hr := rafsi_not_hyphen hc.rafsi
    have key : PAdj PairMade (p :: ps) → PAdj NotBothHyphens (p :: ps) := fun hpp =>
      ih hpp (by intro q e hq; cases e; exact absurd hq hr)
    cases prev with
    | none => exact key hp
    | some q => exact ⟨fun hh => hr hh.2, key hp.2⟩

theorem Chop.last {y : YHyphens} {mz : Bool} {prev : Option Str} {ps : List Str} (h : Chop y mz prev ps) {p : Str}
    (hp : ps.getLast? = some p) (hy : (join ps).getLast? ≠ some 'y') : Rafsi mz p := by
  induction h with
  | nil => cases hp
  | @y q ps _ _ ih =>
    cases ps with
    | nil => exact absurd rfl hy
    | cons a ps =>
      have := ih (by simpa using hp)
      apply this
      intro e
      apply hy
      show ('y' :: join (a :: ps)).getLast? = _
      rw [List.getLast?_cons, e]; rfl
  | @n q ps t _ _ _ hj _ ih =>
    cases ps with
    | nil => simp [join] at hj
    | cons a ps =>
      apply ih (by simpa using hp)
      intro e
      apply hy
      show ('n' :: join (a :: ps)).getLast? = _
      rw [List.getLast?_cons, e]; rfl
  | @r q ps c t _ _ _ hj _ _ _ ih =>
    cases ps with
    | nil => simp [join] at hj
    | cons a ps =>
      apply ih (by simpa using hp)
      intro e
      apply hy
      show ('r' :: join (a :: ps)).getLast? = _
      rw [List.getLast?_cons, e]; rfl
  | @hy q ps _ _ _ ih =>
    cases ps with
    | nil => exact absurd rfl hy
    | cons a ps =>
      apply ih (by simpa using hp)
      intro e
      apply hy
      show ('\'' :: 'y' :: join (a :: ps)).getLast? = _
      rw [List.getLast?_cons, List.getLast?_cons, e]; rfl
  | @rafsi prev q ps hc hch ih =>
    cases ps with
    | nil => simp at hp; subst hp; exact hc.rafsi
    | cons a ps =>
      apply ih (by simpa using hp)
      intro e
      apply hy
      show (q ++ join (a :: ps)).getLast? = _
      rw [List.getLast?_append, e]; rfl

end Jvotci
