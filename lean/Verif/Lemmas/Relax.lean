import Verif.Props.Extended
import Verif.Props.Cluster
import Verif.Props.Exceptions
import Verif.SpecOptions

/-!
# Helper lemmas for C52: options that relax the rules
-/

namespace Jvotci

open Spec

/-- Two values of `y_hyphens` that are equal, or both not FORCE_Y. -/
def YSame (y y' : YHyphens) : Prop := y' = y ∨ (y ≠ .forceY ∧ y' ≠ .forceY)

theorem YSame.symm {y y' : YHyphens} (h : YSame y y') : YSame y' y := by
  rcases h with h | ⟨h, h'⟩
  · exact .inl h.symm
  · exact .inr ⟨h', h⟩

theorem link_same {y y' : YHyphens} {mz : Bool} {p q : Str} (hy : YSame y y') (hq : q ≠ s%"'y") (h : Link y mz p q) : Link y' mz p q := by
  rcases hy with rfl | ⟨-, h2⟩
  · exact h
  · cases h with
    | rafsi a b c d e => exact .rafsi a b c d e
    | y a b => exact .y a b
    | apostropheY => exact absurd rfl hq
    | rOrN _ b c d => exact .rOrN h2 b c d
    | afterY a b => exact .afterY a b
    | afterR a b => exact .afterR a b
    | afterN a b => exact .afterN a b

theorem reading_same {y y' : YHyphens} {mz : Bool} {ps : List Str} (hy : YSame y y') (hp : y' = y ∨ s%"'y" ∉ ps) (h : Reading y mz ps) :
    Reading y' mz ps := by
  rcases hp with rfl | hp
  · exact h
  refine ⟨h.first, h.last, h.diphthongs, ?_, h.start⟩
  intro u p q v e
  refine link_same hy ?_ (h.links u p q v e)
  rintro rfl
  exact hp (by rw [e]; simp)

/-- 'y is not at the end. -/
theorem reading_inner {y : YHyphens} {mz : Bool} {ps : List Str} {h : Str} (hr : Reading y mz ps) (hh : Hyphen h) (hm : h ∈ ps) :
    ∃ u p q v, ps = u ++ p :: h :: q :: v := by
  obtain ⟨u, v, rfl⟩ := List.append_of_mem hm
  obtain ⟨f, hf, hfr⟩ := hr.first
  obtain ⟨l, hl, hlr⟩ := hr.last
  cases v with
  | nil =>
    simp at hl
    subst hl
    exact absurd hh (rafsi_not_hyphen hlr)
  | cons q v =>
    rcases List.eq_nil_or_concat u with rfl | ⟨u, p, rfl⟩
    · simp at hf
      subst hf
      exact absurd hh (rafsi_not_hyphen hfr)
    · exact ⟨u, p, q, v, by simp⟩

theorem lujvoPieces_noApostrophe {s : Settings} {ps : List Str} (h : LujvoPieces s ps) (hy : s.yHyphens ≠ .forceY) : s%"'y" ∉ ps := by
  intro hm
  obtain ⟨u, p, q, v, e⟩ := reading_inner h.reading (by decide) hm
  exact hy (h.apostropheY u p q v e).1

theorem lujvoPieces_same {s s' : Settings} {ps : List Str} (hy : YSame s.yHyphens s'.yHyphens) (hm : s'.allowMz = s.allowMz)
    (hc : s'.consonants = .cluster → s.consonants = .cluster ∨ ∃ p ∈ ps, p = s%"r" ∨ p = s%"n" ∨ (¬ Hyphen p ∧ ¬ VowelRafsi p))
    (h : LujvoPieces s ps) : LujvoPieces s' ps := by
  have hp : s'.yHyphens = s.yHyphens ∨ s%"'y" ∉ ps := by
    rcases hy with hy | ⟨h1, -⟩
    · exact .inl hy
    · exact .inr (lujvoPieces_noApostrophe h h1)
  refine ⟨by rw [hm]; exact reading_same hy hp h.reading, h.two, h.vowel, h.first, by rw [hm]; exact h.y, ?_, h.whole, ?_⟩
  · intro u p q v e
    rcases hp with h1 | h1
    · rw [h1]; exact h.apostropheY u p q v e
    · exact absurd (by rw [e]; simp) h1
  · intro h1
    rcases hc h1 with h2 | h2
    · exact h.cluster h2
    · exact h2

theorem cmevlaPieces_same {s s' : Settings} {ps : List Str} (hy : YSame s.yHyphens s'.yHyphens) (hm : s'.allowMz = s.allowMz)
    (h : CmevlaPieces s ps) : CmevlaPieces s' ps :=
  ⟨by rw [hm]; exact reading_same hy (.inr h.apostropheY) h.reading, h.two, h.consonant, by rw [hm]; exact h.y, h.apostropheY, h.first⟩

/-- The default options apart from `y_hyphens` and `allow_mz`. -/
theorem plainPieces_same {y y' : YHyphens} {mz : Bool} {ps : List Str} (hy : YSame y y')
    (h : LujvoPieces { yHyphens := y, allowMz := mz } ps) : LujvoPieces { yHyphens := y', allowMz := mz } ps :=
  lujvoPieces_same (s := { yHyphens := y, allowMz := mz }) hy rfl (fun _ => .inl rfl) h

theorem plainCmevla_same {y y' : YHyphens} {mz : Bool} {ps : List Str} (hy : YSame y y')
    (h : CmevlaPieces { yHyphens := y, allowMz := mz } ps) : CmevlaPieces { yHyphens := y', allowMz := mz } ps :=
  cmevlaPieces_same (s := { yHyphens := y, allowMz := mz }) hy rfl h

/-- Without y in the word there is no 'y among the pieces. -/
theorem unreadable_same {y y' : YHyphens} {s s' : Settings} {x : Str} (hs : s.yHyphens = y) (hs' : s'.yHyphens = y') (hy : YSame y y')
    (hm : s'.allowMz = s.allowMz) (hx : 'y' ∉ x) (h : Unreadable s x) : Unreadable s' x := by
  subst hs hs'
  intro qs hq e
  rw [hm] at hq
  refine h qs (reading_same hy.symm (.inr ?_) hq) e
  intro hmem
  apply hx
  rw [← e]
  exact List.mem_flatten.2 ⟨_, hmem, by decide⟩

/-! ### A lujvo of CVV and CV'V rafsi has no cluster -/

/-- After a consonant comes a vowel. -/
def Open (w : Str) : Prop := ∀ a b, Adjacent w a b → Consonant a → Vowel b

theorem open_append {x t : Str} (h1 : Open x) (h2 : ∀ c, x.getLast? = some c → ¬ Consonant c) (h3 : Open t) : Open (x ++ t) := by
  intro a b ⟨u, v, e⟩ ha
  rcases List.append_eq_append_iff.1 e with ⟨z, e1, e2⟩ | ⟨z, e1, e2⟩
  · exact h3 a b ⟨z, v, e2⟩ ha
  · cases z with
    | nil =>
      simp at e1 e2
      exact h3 a b ⟨[], v, by simp [← e2]⟩ ha
    | cons c z =>
      simp only [List.cons_append, List.cons.injEq] at e2
      obtain ⟨rfl, e2⟩ := e2
      cases z with
      | nil =>
        exact absurd ha (h2 a (by rw [e1]; simp))
      | cons d z =>
        simp only [List.cons_append, List.cons.injEq] at e2
        obtain ⟨rfl, e2⟩ := e2
        exact h1 a b ⟨u, z, e1⟩ ha

theorem adjacent_uncons {c a b : Char} {w : Str} (h : Adjacent (c :: w) a b) : (a = c ∧ w.head? = some b) ∨ Adjacent w a b := by
  obtain ⟨u, v, e⟩ := h
  cases u with
  | nil =>
    simp at e
    exact .inl ⟨e.1.symm, by rw [e.2]; rfl⟩
  | cons d u =>
    simp at e
    exact .inr ⟨u, v, e.2⟩

theorem open_piece {mz : Bool} {p : Str} (h : Hyphen p ∨ Rafsi mz p) (hn : ¬ (p = s%"r" ∨ p = s%"n" ∨ (¬ Hyphen p ∧ ¬ VowelRafsi p))) :
    Open p ∧ ∀ c, p.getLast? = some c → ¬ Consonant c := by
  have hyph : p = s%"y" ∨ p = s%"'y" ∨ p = s%"y'" ∨ p = s%"'y'" → Open p ∧ ∀ c, p.getLast? = some c → ¬ Consonant c := by
    intro h
    have h1 : ∀ a ∈ p, ¬ Consonant a := by
      rcases h with rfl | rfl | rfl | rfl <;> decide
    refine ⟨?_, ?_⟩
    · rintro a b ⟨u, v, e⟩ ha
      exact absurd ha (h1 a (by rw [e]; simp))
    · intro c hc
      exact h1 c (List.mem_of_getLast? hc)
  have hv : VowelRafsi p → Open p ∧ ∀ c, p.getLast? = some c → ¬ Consonant c := by
    rintro ⟨c, a, b, ha, hb, rfl | rfl⟩
    · refine ⟨?_, by intro d hd; simp at hd; subst hd; exact vowel_not_consonant hb⟩
      intro d e hde hd
      rcases adjacent_uncons hde with ⟨-, h⟩ | hde
      · simp at h; subst h; exact ha
      rcases adjacent_uncons hde with ⟨rfl, -⟩ | hde
      · exact absurd hd (vowel_not_consonant ha)
      rcases adjacent_uncons hde with ⟨-, h⟩ | ⟨u, v, h⟩
      · cases h
      · simp at h
    · refine ⟨?_, by intro d hd; simp at hd; subst hd; exact vowel_not_consonant hb⟩
      intro d e hde hd
      rcases adjacent_uncons hde with ⟨-, h⟩ | hde
      · simp at h; subst h; exact ha
      rcases adjacent_uncons hde with ⟨rfl, -⟩ | hde
      · exact absurd hd (vowel_not_consonant ha)
      rcases adjacent_uncons hde with ⟨rfl, -⟩ | hde
      · exact absurd hd (by decide)
      rcases adjacent_uncons hde with ⟨-, h⟩ | ⟨u, v, h⟩
      · cases h
      · simp at h
  simp only [not_or, Classical.not_and_iff_not_or_not, Classical.not_not] at hn
  rcases hn.2.2 with hh | hh
  · refine hyph ?_
    have := hh
    simp only [Hyphen, List.mem_cons, List.not_mem_nil, or_false] at this
    grind
  · exact hv hh

/-- A word of lujvo pieces that has a consonant before a consonant or y has a piece that counts as a cluster. -/
theorem pieces_break {s : Settings} {ps : List Str} (h : LujvoPieces s ps) (hb : HasBreak ps.flatten) :
    ∃ p ∈ ps, p = s%"r" ∨ p = s%"n" ∨ (¬ Hyphen p ∧ ¬ VowelRafsi p) := by
  refine Classical.byContradiction fun hno => ?_
  have key : ∀ qs : List Str, (∀ p ∈ qs, p ∈ ps) → Open qs.flatten := by
    intro qs
    induction qs with
    | nil => rintro - a b ⟨u, v, e⟩; simp at e
    | cons p qs ih =>
      intro hsub
      obtain ⟨h1, h2⟩ := open_piece (reading_pieces h.reading p (hsub p (by simp))) (fun hc => hno ⟨p, hsub p (by simp), hc⟩)
      rw [List.flatten_cons]
      exact open_append h1 h2 (ih fun q hq => hsub q (by simp [hq]))
  obtain ⟨a, b, ha, hb, u, v, e⟩ := hb
  have := key ps (fun _ h => h) a b ⟨u, v, by rw [e]; simp⟩ ha
  rcases hb with hb | rfl
  · exact vowel_not_consonant this hb
  · revert this; decide

/-! ### Words without y -/

theorem joinParts_y {p q : YPart} {v : List YPart} : 'y' ∈ joinParts (p :: q :: v) := by
  simp [joinParts]

/-- `is_brivla` of a word without y is the same under STANDARD and ALLOW_Y. -/
theorem plain_same (n : Nat) : ∀ {y y' : YHyphens} {t : Str}, t.length ≤ n → t.length < 10 ^ 93 →
    (∀ c ∈ t, Vowel c ∨ Consonant c ∨ c = '\'') → YSame y y' → isBrivla .linked { yHyphens := y } t = .ok true →
    isBrivla .linked { yHyphens := y' } t = .ok true := by
  induction n with
  | zero =>
    intro y y' t hn _ _ _ h
    cases t with
    | nil => cases h
    | cons => simp at hn
  | succ n ih =>
    intro y y' t hn hlen hl hy h
    have hr := reading_letters hl
    rw [C48_brivla hlen] at h ⊢
    rw [hr] at h ⊢
    rcases h with h | ⟨ps, e, h⟩ | ⟨h1, h2, h3⟩ | ⟨parts, e, h⟩
    · exact .inl h
    · exact .inr (.inl ⟨ps, e, plainPieces_same (mz := false) hy h⟩)
    · refine .inr (.inr (.inl ⟨h1, ?_, ?_⟩))
      · intro u t' e hu ht ha
        have h4 := h2 u t' e hu ht ha
        have hne : t' ≠ [] := by rintro rfl; rcases ht with h | h <;> cases h
        have hl' : ∀ c ∈ t', Vowel c ∨ Consonant c ∨ c = '\'' := fun c hc => hl c (by rw [e]; simp [hc])
        have hy' : 'y' ∉ reading t' := by
          rw [reading_letters hl']
          intro h
          rcases hl' _ h with h | h | h <;> revert h <;> decide
        rcases C15_words_without_y_partial .linked { yHyphens := y' } hne hy' with ⟨-, b, hb⟩ | ⟨h, -⟩
        · cases b with
          | false => exact hb
          | true =>
            have hul : 0 < u.length := by
              obtain ⟨a, hua, -⟩ := hu
              cases u with
              | nil => cases hua
              | cons => simp
            have hlen2 : t.length = u.length + t'.length := by rw [e]; simp
            have := ih (by omega) (by omega) hl' hy.symm hb
            rw [h4] at this
            cases this
        · cases h
      · intro hc qs hq
        exact h3 hc qs (plainPieces_same (mz := false) hy.symm hq)
    · have hyt : 'y' ∉ t := by
        intro h
        rcases hl _ h with h | h | h <;> revert h <;> decide
      exfalso
      have h2 := h.two
      match parts, h2 with
      | p :: q :: v, _ => exact hyt (by rw [← e]; exact joinParts_y)

theorem plain_false {y y' : YHyphens} {t : Str} (hlen : t.length < 10 ^ 93) (hne : t ≠ []) (hl : ∀ c ∈ t, Vowel c ∨ Consonant c ∨ c = '\'')
    (hy : YSame y y') (h : isBrivla .linked { yHyphens := y } t = .ok false) : isBrivla .linked { yHyphens := y' } t = .ok false := by
  have hy' : 'y' ∉ reading t := by
    rw [reading_letters hl]
    intro h
    rcases hl _ h with h | h | h <;> revert h <;> decide
  rcases C15_words_without_y_partial .linked { yHyphens := y' } hne hy' with ⟨-, b, hb⟩ | ⟨h, -⟩
  · cases b with
    | false => exact hb
    | true =>
      have := plain_same t.length (Nat.le_refl _) hlen hl hy.symm hb
      rw [h] at this
      cases this
  · cases h

/-! ### Parts -/

theorem Spec.Looser.same {s s' : Settings} (h : Looser s s') : YSame s.yHyphens s'.yHyphens := by
  rcases h.y with h | ⟨h1, h2⟩
  · exact .inl h
  · exact .inr ⟨by rw [h1]; decide, by rw [h2]; decide⟩

theorem Spec.Looser.standard {s s' : Settings} (h : Looser s s') (hs : s'.yHyphens = .standard) : s.yHyphens = .standard := by
  rcases h.y with h | ⟨h1, h2⟩
  · rw [← h]; exact hs
  · exact h1

theorem starts_relax {g g' : Bool} {x : Str} (hg : g = true → g' = true) (h : Starts g x) : Starts g' x := by
  rcases h with h | ⟨h1, h2⟩
  · exact .inl h
  · exact .inr ⟨hg h1, h2⟩

theorem partsCluster_relax {s s' : Settings} {ps : List YPart} (h : Looser s s') (hc : PartsCluster s ps) : PartsCluster s' ps := by
  rcases hc with hc | ⟨u, p, q, v, e, h1, h2, h3⟩
  · exact .inl hc
  · exact .inr ⟨u, p, q, v, e, h1, h2, starts_relax h.glides h3⟩

theorem clusterBefore_relax {s s' : Settings} {u : List YPart} {p : YPart} (h : Looser s s') (hc : ClusterBefore s u p) : ClusterBefore s' u p := by
  rcases hc with hc | ⟨h1, h2⟩
  · exact .inl (partsCluster_relax h hc)
  · exact .inr ⟨h1, starts_relax h.glides h2⟩

theorem needs_relax {s s' : Settings} {last nl : Bool} {c c' : Prop} {p : YPart} (h : Looser s s') (hc : c → c')
    (hn : NeedsCluster s' last nl c' p) : NeedsCluster s last nl c p := by
  rcases hn with hn | ⟨h1, h2, h3, h4⟩
  · exact .inl hn
  · exact .inr ⟨h1, h.standard h2, h3, fun h => h4 (hc h)⟩

theorem stemOk_relax {s s' : Settings} {x : Str} (h : Looser s s') (hs : StemOk s x) : StemOk s' x := by
  intro h1 qs h2 h3
  rw [h.mz] at h2 ⊢
  exact hs h1 qs (plainPieces_same h.same.symm h2) h3

theorem fallsOff_relax {s s' : Settings} {x : Str} (h : Looser s s') (hs : FallsOff s' x) : FallsOff s x := by
  obtain ⟨a, m, e, h1, h2⟩ := hs
  refine ⟨a, m, e, h1, ?_⟩
  rcases h2 with h2 | ⟨qs, e, h2⟩
  · exact .inl h2
  · rw [h.mz] at h2
    refine .inr ⟨qs, e, ?_⟩
    rcases h2 with h2 | h2
    · exact .inl (plainPieces_same h.same.symm h2)
    · exact .inr (plainCmevla_same h.same.symm h2)

theorem whole_letters {mz : Bool} {x : Str} (h : Sounds mz x) : 'y' ∉ x := by
  intro hy
  rcases h.letters _ hy with h | h | h <;> revert h <;> decide

theorem partOk_relax {s s' : Settings} {cm f l nl : Bool} {c c' : Prop} {p : YPart} (h : Looser s s') (hlen : p.core.length < 10 ^ 92)
    (hc : c → c') (hp : PartOk s cm f l nl c p) : PartOk s' cm f l nl c' p := by
  obtain ⟨h1, h2, h3, h4, h5, hk⟩ := hp
  refine ⟨h1, h2, h3, h4, h5, ?_⟩
  cases hkk : p.kind with
  | cvc => rw [hkk] at hk; exact hk
  | rafsi =>
    rw [hkk] at hk
    obtain ⟨a, b, c, d, e, f, g⟩ := (hk : RafsiPart s cm _ l nl _ p)
    refine (⟨?_, b, c, d, stemOk_relax h e, ?_, ?_⟩ : RafsiPart s' cm _ l nl c' p)
    · rw [h.mz]
      refine reading_same h.same (.inr ?_) a
      intro hm
      apply h3
      rw [← b]
      exact List.mem_flatten.2 ⟨_, hm, by decide⟩
    · intro a1 a2 a3 a4 a5
      exact hc (f a1 a2 a3 (h.standard a4) a5)
    · intro a1 a2
      exact g a1 (fallsOff_relax h a2)
  | zihevla =>
    rw [hkk] at hk
    obtain ⟨a1, a2, a3, a4, a5, a6, a7, a8, a9, a10⟩ := (hk : ZihevlaPart s l nl _ p)
    have hw := whole_letters a4
    refine (⟨a1, ?_, stemOk_relax h a3, by rw [h.mz]; exact a4, a5, a6, ?_, ?_, ?_, ?_⟩ : ZihevlaPart s' l nl c' p)
    · intro hx
      exact unreadable_same rfl rfl h.same h.mz h3 (a2 hx)
    · intro hx
      refine a7 ?_
      rcases hx with hx | hx
      · exact .inl (needs_relax h hc hx)
      · refine .inr ?_
        cases he : s.expRafsi with
        | false => rfl
        | true => rw [h.exp he] at hx; cases hx
    · intro n hn h2n u t e hu ht hadj
      have hsub : ∀ c ∈ t, c ∈ p.whole l := fun c hc => by rw [e]; simp [hc]
      refine plain_false ?_ ?_ (fun c hc => a4.letters c (hsub c hc)) h.same (a8 n hn h2n u t e hu ht hadj)
      · have : (p.whole l).length ≤ p.core.length + 1 := by
          unfold YPart.whole
          split <;> simp
        have h2 : (p.whole l).length = u.length + t.length := by rw [e]; simp
        have : (10 : Nat) ^ 93 = 10 * 10 ^ 92 := by rw [Nat.pow_succ, Nat.mul_comm]
        have : 0 < (10 : Nat) ^ 92 := Nat.pow_pos (by decide)
        omega
      · rintro rfl
        rcases ht with h | h <;> cases h
    · intro b1 qs b2
      rw [h.mz] at b2
      exact a9 b1 qs (plainPieces_same h.same.symm b2)
    · intro b1 b2
      refine unreadable_same rfl rfl h.same h.mz ?_ (a10 b1 b2)
      simpa using h3
  | exp =>
    rw [hkk] at hk
    obtain ⟨a1, a2, a3, a4, a5, a6, a7, a8⟩ := (hk : ExpPart s l nl _ p)
    exact (⟨a1, h.exp a2, fun hx => a3 (needs_relax h hc hx), unreadable_same rfl rfl h.same h.mz h3 a4, by rw [h.mz]; exact a5, a6, a7, a8⟩ :
      ExpPart s' l nl c' p)

theorem core_short {ps : List YPart} : ∀ p ∈ ps, p.core.length ≤ (joinParts ps).length := by
  induction ps with
  | nil => intro p hp; cases hp
  | cons q v ih =>
    intro p hp
    have hq : q.core.length ≤ q.text.length := by
      unfold YPart.text
      simp
      omega
    cases v with
    | nil =>
      simp at hp
      subst hp
      exact hq
    | cons r v =>
      have e : joinParts (q :: r :: v) = q.text ++ s%"y" ++ joinParts (r :: v) := rfl
      rw [e]
      simp only [List.length_append]
      rcases List.mem_cons.1 hp with rfl | hp
      · omega
      · have := ih p hp
        omega

theorem count_relax {s s' : Settings} (h : Looser s s') (p : YPart) : p.count s ≤ p.count s' := by
  unfold YPart.count
  split
  · exact Nat.le_refl _
  · exact Nat.le_refl _
  · exact Nat.le_refl _
  · have : Starts s.glides p.core → Starts s'.glides p.core := starts_relax h.glides
    by_cases h1 : Starts s.glides p.core
    · rw [if_pos h1, if_pos (this h1)]
      exact Nat.le_refl _
    · rw [if_neg h1]
      omega

theorem counts_relax {s s' : Settings} (h : Looser s s') (ps : List YPart) : (ps.map (YPart.count s)).sum ≤ (ps.map (YPart.count s')).sum := by
  induction ps with
  | nil => exact Nat.le_refl _
  | cons p ps ih =>
    have := count_relax h p
    simp only [List.map_cons, List.sum_cons]
    omega

theorem extended_relax {s s' : Settings} {ps : List YPart} (h : Looser s s') (hlen : (joinParts ps).length < 10 ^ 92)
    (hb : s.consonants = .cluster → HasBreak (joinParts ps)) (he : ExtendedLujvo s ps) : ExtendedLujvo s' ps := by
  obtain ⟨h1, h2, h3, h4, h5, h6, h7⟩ := he
  refine ⟨h1, ?_, ?_, h4, h5, ?_, ?_⟩
  · intro u p v e
    have := core_short (ps := ps) p (by rw [e]; simp)
    exact partOk_relax h (by omega) (clusterBefore_relax h) (h2 u p v e)
  · rcases h3 with h3 | ⟨a, b, c⟩
    · exact .inl (partsCluster_relax h h3)
    · have hs := counts_relax h ps
      refine .inr ⟨?_, ?_, c⟩
      · rcases h.consonants with hc | hc | hc
        · rw [hc]; exact a
        · exact absurd hc a
        · rw [hc]; decide
      · rcases h.consonants with hc | hc | hc
        · rw [hc]; omega
        · exact absurd hc a
        · rw [if_pos hc]
          split at b <;> omega
  · intro qs hq e
    refine h6 qs (lujvoPieces_same h.same.symm h.mz.symm ?_ hq) e
    intro hc
    exact .inr (pieces_break hq (by rw [e]; exact hb hc))
  · intro a qs hq
    rw [h.mz] at hq
    exact h7 a qs (plainPieces_same h.same.symm hq)

theorem extendedCmevla_relax {s s' : Settings} {ps : List YPart} (h : Looser s s') (hlen : (joinParts ps).length < 10 ^ 92)
    (he : ExtendedCmevla s ps) : ExtendedCmevla s' ps := by
  obtain ⟨h1, h2, h3, h4, h5, h6⟩ := he
  refine ⟨h1, ?_, h3, h4, ?_, ?_⟩
  · intro u p v e
    have := core_short (ps := ps) p (by rw [e]; simp)
    exact partOk_relax h (by omega) (clusterBefore_relax h) (h2 u p v e)
  · intro qs hq e
    exact h5 qs (cmevlaPieces_same h.same.symm h.mz.symm hq) e
  · intro a qs hq
    rw [h.mz] at hq
    exact h6 a qs (plainCmevla_same h.same.symm hq)

end Jvotci
