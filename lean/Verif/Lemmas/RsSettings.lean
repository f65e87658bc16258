import Verif.SpecRs

/-!
# Helper lemmas: the settings of the Rust crate
-/

namespace Jvotci

open Spec

theorem filter_le_one {p : Char → Bool} : ∀ {w : Str}, (w.filter p).length ≤ 1 ↔ w.Pairwise fun a b => ¬ (p a = true ∧ p b = true)
  | [] => by simp
  | c :: w => by
    rw [List.pairwise_cons, ← filter_le_one (w := w)]
    by_cases h : p c = true
    · rw [List.filter_cons_of_pos h, List.length_cons]
      constructor
      · intro h1
        have : w.filter p = [] := List.length_eq_zero_iff.1 (by omega)
        rw [List.filter_eq_nil_iff] at this
        exact ⟨fun d hd hh => this d hd hh.2, by omega⟩
      · rintro ⟨h1, h2⟩
        have : w.filter p = [] := List.filter_eq_nil_iff.2 fun d hd hp => h1 d hd ⟨h, hp⟩
        rw [this]; simp
    · rw [List.filter_cons_of_neg h]
      exact ⟨fun h1 => ⟨fun d _ hh => h hh.1, h1⟩, fun h1 => h1.2⟩

/-- Which letters are flags of which kind. -/
theorem flagKind_cases (c : Char) :
    (flagKind c = .cmevla ↔ c = 'c') ∧ (flagKind c = .hyphens ↔ c = 'S' ∨ c = 'A' ∨ c = 'F') ∧
    (flagKind c = .consonants ↔ c = 'C' ∨ c = '2' ∨ c = '1') ∧ (flagKind c = .rafsi ↔ c = 'r') ∧
    (flagKind c = .glides ↔ c = 'g') ∧ (flagKind c = .mz ↔ c = 'z') ∧
    (flagKind c ≠ .none ↔ c ∈ s%"cSAFC21rgz") := by
  unfold flagKind
  repeat' split
  all_goals simp_all
  all_goals grind

theorem goodFlags_iff {w : Str} : GoodFlags w ↔
    ¬ ((s%"crgz").any (fun x => (w.filter (· == x)).length > 1) ||
      (w.filter (fun c => (s%"SAF").contains c)).length > 1 ||
      (w.filter (fun c => (s%"C21").contains c)).length > 1 ||
      (w.filter (fun c => !(s%"cSAFC21rgz").contains c)).length != 0) = true := by
  have hlt : ∀ n : Nat, ¬ n > 1 ↔ n ≤ 1 := by intro n; omega
  have hcon : ∀ (l : Str) (c : Char), l.contains c = true ↔ c ∈ l := fun l c => by simp
  have hncon : ∀ (l : Str) (c : Char), ¬ (!l.contains c) = true ↔ c ∈ l := fun l c => by simp
  rw [Bool.or_eq_true, Bool.or_eq_true, Bool.or_eq_true, not_or, not_or, not_or, List.any_eq_true, bne_iff_ne, decide_eq_true_eq,
    decide_eq_true_eq, hlt, hlt, filter_le_one, filter_le_one, Decidable.not_not, List.length_eq_zero_iff, List.filter_eq_nil_iff]
  have e1 : (¬ ∃ x, x ∈ s%"crgz" ∧ decide ((w.filter (· == x)).length > 1) = true) ↔
      ∀ x ∈ s%"crgz", w.Pairwise fun a b => ¬ (a = x ∧ b = x) := by
    constructor
    · intro h x hx
      have : (w.filter (· == x)).length ≤ 1 := by
        rw [← hlt]
        exact fun hh => h ⟨x, hx, decide_eq_true hh⟩
      refine (filter_le_one.1 this).imp fun {a b} hab hh => hab ⟨by simp [hh.1], by simp [hh.2]⟩
    · rintro h ⟨x, hx, hh⟩
      have := filter_le_one (p := (· == x)).2 ((h x hx).imp fun {a b} hab hh => hab ⟨by simpa using hh.1, by simpa using hh.2⟩)
      have := of_decide_eq_true hh
      omega
  rw [e1]
  simp only [hcon, hncon]
  have mS : ∀ c, c ∈ s%"SAF" ↔ flagKind c = .hyphens := fun c => by rw [(flagKind_cases c).2.1]; simp
  have mC : ∀ c, c ∈ s%"C21" ↔ flagKind c = .consonants := fun c => by rw [(flagKind_cases c).2.2.1]; simp
  simp only [mS, mC, ← (flagKind_cases _).2.2.2.2.2.2]
  unfold GoodFlags
  constructor
  · rintro ⟨h1, h2⟩
    refine ⟨⟨⟨fun x hx => h2.imp fun {a b} hab hh => ?_, h2.imp fun {a b} hab hh => ?_⟩, h2.imp fun {a b} hab hh => ?_⟩, h1⟩
    · rw [hh.1, hh.2] at hab
      exact hab rfl
    · exact hab (hh.1.trans hh.2.symm)
    · exact hab (hh.1.trans hh.2.symm)
  · rintro ⟨⟨⟨h1, h2⟩, h3⟩, hall⟩
    refine ⟨hall, ?_⟩
    have hc := h1 'c' (by decide)
    have hr := h1 'r' (by decide)
    have hg := h1 'g' (by decide)
    have hz := h1 'z' (by decide)
    have all := ((((hc.and hr).and hg).and hz).and h2).and h3
    refine all.imp_of_mem ?_
    rintro a b ha - ⟨⟨⟨⟨⟨h1, h2⟩, h3⟩, h4⟩, h5⟩, h6⟩ hab
    obtain ⟨a1, a2, a3, a4, a5, a6, -⟩ := flagKind_cases a
    obtain ⟨b1, b2, b3, b4, b5, b6, -⟩ := flagKind_cases b
    cases hk : flagKind a with
    | none => exact hall a ha hk
    | cmevla => exact h1 ⟨a1.1 hk, b1.1 (hab ▸ hk)⟩
    | hyphens => exact h5 ⟨hk, hab ▸ hk⟩
    | consonants => exact h6 ⟨hk, hab ▸ hk⟩
    | rafsi => exact h2 ⟨a4.1 hk, b4.1 (hab ▸ hk)⟩
    | glides => exact h3 ⟨a5.1 hk, b5.1 (hab ▸ hk)⟩
    | mz => exact h4 ⟨a6.1 hk, b6.1 (hab ▸ hk)⟩

theorem good_unique {w : Str} (h : GoodFlags w) {a b : Char} (ha : a ∈ w) (hb : b ∈ w) (hab : flagKind a = flagKind b) : a = b := by
  obtain ⟨-, h⟩ := h
  induction w with
  | nil => cases ha
  | cons c w ih =>
    rw [List.pairwise_cons] at h
    rcases List.mem_cons.1 ha with ea | ha' <;> rcases List.mem_cons.1 hb with eb | hb'
    · rw [ea, eb]
    · exact absurd (ea ▸ hab) (h.1 _ hb')
    · exact absurd (eb ▸ hab.symm) (h.1 _ ha')
    · exact ih ha' hb' h.2

theorem says_unique {w : Str} {s t : RsSettings} (hs : Says w s) (ht : Says w t) : s = t := by
  have hb : ∀ {a b : Bool} {p : Prop}, (a = true ↔ p) → (b = true ↔ p) → a = b := by
    intro a b p h1 h2
    have := h1.trans h2.symm
    cases a <;> cases b <;> simp at this ⊢
  have hy : s.yHyphens = t.yHyphens := by
    have h1 := hs.allowY.trans ht.allowY.symm
    have h2 := hs.forceY.trans ht.forceY.symm
    generalize s.yHyphens = a at *
    generalize t.yHyphens = b at *
    cases a <;> cases b <;> simp at h1 h2 ⊢
  have hc : s.consonants = t.consonants := by
    have h1 := hs.two.trans ht.two.symm
    have h2 := hs.one.trans ht.one.symm
    generalize s.consonants = a at *
    generalize t.consonants = b at *
    cases a <;> cases b <;> simp at h1 h2 ⊢
  cases s; cases t
  simp only [RsSettings.mk.injEq]
  exact ⟨hb hs.cmevla ht.cmevla, hy, hc, hb hs.rafsi ht.rafsi, hb hs.glides ht.glides, hb hs.mz ht.mz⟩

theorem rsParse_says {w : Str} {s : RsSettings} (h : rsParse w = some s) : GoodFlags w ∧ Says w s := by
  unfold rsParse at h
  split at h
  · cases h
  · rename_i hg
    have hg := goodFlags_iff.2 hg
    refine ⟨hg, ?_⟩
    cases h
    have k1 : flagKind 'A' = flagKind 'F' := by decide
    have k2 : flagKind '2' = flagKind '1' := by decide
    constructor <;> simp only [List.contains_eq_mem, decide_eq_true_eq]
    · by_cases h : 'A' ∈ w
      · simp [h]
      · simp only [h, if_false, iff_false]
        split <;> simp
    · by_cases h : 'A' ∈ w
      · simp only [h, if_true]
        constructor
        · simp
        · intro hf; exact absurd (good_unique hg h hf k1) (by decide)
      · by_cases h' : 'F' ∈ w <;> simp [h, h']
    · by_cases h : '2' ∈ w
      · simp [h]
      · simp only [h, if_false, iff_false]
        split <;> simp
    · by_cases h : '2' ∈ w
      · simp only [h, if_true]
        constructor
        · simp
        · intro hf; exact absurd (good_unique hg h hf k2) (by decide)
      · by_cases h' : '1' ∈ w <;> simp [h, h']

theorem rsParse_good {w : Str} (h : GoodFlags w) : ∃ s, rsParse w = some s := by
  unfold rsParse
  rw [if_neg (goodFlags_iff.1 h)]
  exact ⟨_, rfl⟩

theorem rsApplyFlag_some (s : RsSettings) (c : Char) : (∃ s', rsApplyFlag s c = some s') ↔ flagKind c ≠ .none := by
  rw [(flagKind_cases c).2.2.2.2.2.2]
  unfold rsApplyFlag
  simp only [List.mem_cons, List.not_mem_nil, or_false]
  repeat' split
  all_goals simp_all

theorem rsApplyLoop_some : ∀ (w : Str) (s : RsSettings), (∃ s', rsApplyLoop s w = some s') ↔ ∀ c ∈ w, flagKind c ≠ .none
  | [], s => by simp [rsApplyLoop]
  | c :: w, s => by
    have h1 := rsApplyFlag_some s c
    unfold rsApplyLoop
    cases hc : rsApplyFlag s c with
    | none =>
      rw [hc] at h1
      have : ¬ flagKind c ≠ .none := fun h => by obtain ⟨_, h⟩ := h1.2 h; cases h
      simp only [List.mem_cons, forall_eq_or_imp]
      constructor
      · rintro ⟨_, h⟩; cases h
      · intro h; exact absurd h.1 this
    | some s1 =>
      have := h1.1 ⟨s1, hc⟩
      simp only [List.mem_cons, forall_eq_or_imp]
      rw [rsApplyLoop_some w s1]
      exact ⟨fun h => ⟨this, h⟩, fun h => h.2⟩

theorem rsApplyFlags_loop (s : RsSettings) (w : Str) : rsApplyFlags s w = rsApplyLoop s w := by
  unfold rsApplyFlags
  split
  · rename_i h
    cases hl : rsApplyLoop s w with
    | none => rfl
    | some s' =>
      have := (rsApplyLoop_some w s).1 ⟨s', hl⟩
      exfalso
      simp only [Bool.not_eq_true', ← Bool.not_eq_true, List.all_eq_true, List.contains_eq_mem, decide_eq_true_eq] at h
      exact h fun c hc => (flagKind_cases c).2.2.2.2.2.2.1 (this c hc)
  · rfl

theorem rsApplyLoop_append : ∀ (u v : Str) (s : RsSettings), rsApplyLoop s (u ++ v) = (rsApplyLoop s u).bind fun s' => rsApplyLoop s' v
  | [], v, s => rfl
  | c :: u, v, s => by
    show (match rsApplyFlag s c with | some s' => rsApplyLoop s' (u ++ v) | none => none) =
      (match rsApplyFlag s c with | some s' => rsApplyLoop s' u | none => none).bind _
    cases rsApplyFlag s c with
    | none => rfl
    | some s' => exact rsApplyLoop_append u v s'

/-- One more flag, of a kind no flag before it is about. -/
theorem says_snoc {w : Str} {s s' : RsSettings} {c : Char} (hs : Says w s) (hn : ∀ a ∈ w, flagKind a ≠ flagKind c)
    (h : rsApplyFlag s c = some s') : Says (w ++ [c]) s' := by
  have key : ∀ {a : Char}, flagKind a = flagKind c → a ∉ w := fun h hm => hn _ hm h
  have hyd : ∀ {a b : Char}, a ∈ w → flagKind b = flagKind a → flagKind b = flagKind c → False := fun hm h1 h2 => hn _ hm (h1.symm.trans h2)
  unfold rsApplyFlag at h
  split at h
  · rename_i e; subst e
    have := key (a := 'c') rfl
    have hf : s.generateCmevla = false := by
      cases hx : s.generateCmevla
      · rfl
      · exact absurd (hs.cmevla.1 hx) this
    cases h
    constructor <;> simp [hf, hs.rafsi, hs.glides, hs.mz, hs.allowY, hs.forceY, hs.two, hs.one]
  split at h
  · rename_i e; subst e
    have := key (a := 'r') rfl
    have hf : s.expRafsi = false := by
      cases hx : s.expRafsi
      · rfl
      · exact absurd (hs.rafsi.1 hx) this
    cases h
    constructor <;> simp [hf, hs.cmevla, hs.glides, hs.mz, hs.allowY, hs.forceY, hs.two, hs.one]
  split at h
  · rename_i e; subst e
    have := key (a := 'g') rfl
    have hf : s.glides = false := by
      cases hx : s.glides
      · rfl
      · exact absurd (hs.glides.1 hx) this
    cases h
    constructor <;> simp [hf, hs.cmevla, hs.rafsi, hs.mz, hs.allowY, hs.forceY, hs.two, hs.one]
  split at h
  · rename_i e; subst e
    have := key (a := 'z') rfl
    have hf : s.allowMz = false := by
      cases hx : s.allowMz
      · rfl
      · exact absurd (hs.mz.1 hx) this
    cases h
    constructor <;> simp [hf, hs.cmevla, hs.rafsi, hs.glides, hs.allowY, hs.forceY, hs.two, hs.one]
  have hy : flagKind c = .hyphens → 'A' ∉ w ∧ 'F' ∉ w ∧ s.yHyphens = .standard := by
    intro hk
    have h1 : 'A' ∉ w := key (by rw [hk]; rfl)
    have h2 : 'F' ∉ w := key (by rw [hk]; rfl)
    refine ⟨h1, h2, ?_⟩
    have h3 := mt hs.allowY.1 h1
    have h4 := mt hs.forceY.1 h2
    cases hx : s.yHyphens <;> simp_all
  have hk' : flagKind c = .consonants → '2' ∉ w ∧ '1' ∉ w ∧ s.consonants = .cluster := by
    intro hk
    have h1 : '2' ∉ w := key (by rw [hk]; rfl)
    have h2 : '1' ∉ w := key (by rw [hk]; rfl)
    refine ⟨h1, h2, ?_⟩
    have h3 := mt hs.two.1 h1
    have h4 := mt hs.one.1 h2
    cases hx : s.consonants <;> simp_all
  split at h
  · rename_i e; subst e
    obtain ⟨h1, h2, h3⟩ := hy rfl
    cases h
    constructor <;> simp [h1, h2, h3, hs.cmevla, hs.rafsi, hs.glides, hs.mz, hs.two, hs.one]
  split at h
  · rename_i e; subst e
    obtain ⟨h1, h2, h3⟩ := hy rfl
    cases h
    constructor <;> simp [h1, h2, h3, hs.cmevla, hs.rafsi, hs.glides, hs.mz, hs.two, hs.one]
  split at h
  · rename_i e; subst e
    obtain ⟨h1, h2, h3⟩ := hy rfl
    cases h
    constructor <;> simp [h1, h2, hs.cmevla, hs.rafsi, hs.glides, hs.mz, hs.two, hs.one]
  split at h
  · rename_i e; subst e
    obtain ⟨h1, h2, h3⟩ := hk' rfl
    cases h
    constructor <;> simp [h1, h2, h3, hs.cmevla, hs.rafsi, hs.glides, hs.mz, hs.allowY, hs.forceY]
  split at h
  · rename_i e; subst e
    obtain ⟨h1, h2, h3⟩ := hk' rfl
    cases h
    constructor <;> simp [h1, h2, h3, hs.cmevla, hs.rafsi, hs.glides, hs.mz, hs.allowY, hs.forceY]
  split at h
  · rename_i e; subst e
    obtain ⟨h1, h2, h3⟩ := hk' rfl
    cases h
    constructor <;> simp [h1, h2, hs.cmevla, hs.rafsi, hs.glides, hs.mz, hs.allowY, hs.forceY]
  · cases h

theorem says_apply : ∀ {w u : Str} {s s' : RsSettings}, Says u s → GoodFlags (u ++ w) → rsApplyLoop s w = some s' → Says (u ++ w) s'
  | [], u, s, s', hs, _, h => by cases h; simpa using hs
  | c :: w, u, s, s', hs, hg, h => by
    unfold rsApplyLoop at h
    split at h
    · rename_i s1 h1
      have e : u ++ c :: w = (u ++ [c]) ++ w := by simp
      rw [e] at hg ⊢
      refine says_apply (says_snoc hs ?_ h1) hg h
      intro a ha
      have := hg.2
      rw [List.pairwise_append, List.pairwise_append] at this
      exact this.1.2.2 a ha c (by simp)
    · cases h

theorem says_nil : Says [] {} := by constructor <;> simp

end Jvotci
