import Verif.Lemmas.Words2
import Verif.Props.Words
import Verif.Props.Zihevla

/-!
# Helper lemmas: reading back what the search has made
-/

namespace Jvotci

open Spec

/-! ## The index pairs -/

/-- The places of the rafsi of a word that begins at `n`. -/
def places : Nat → List (Str × Str) → List (Nat × Nat)
  | _, [] => []
  | n, (x, h) :: l => (n, n + x.length) :: places (n + x.length + h.length) l

theorem places_append : ∀ (l m : List (Str × Str)) (n : Nat), places n (l ++ m) = places n l ++ places (n + (spell l).length) m
  | [], _, _ => rfl
  | (x, h) :: l, m, n => by
    simp only [List.cons_append, places, places_append l m, spell_cons, List.length_append]
    congr 3
    omega

theorem layout_pairs {mz : Bool} {w : Str} {xs : List Str} {ix : List (Nat × Nat)} (h : Layout mz w xs ix) :
    ∃ u z, spell (u ++ [(z, [])]) = w ∧ (u ++ [(z, [])]).map Prod.fst = xs ∧ (∀ p ∈ u, Gap p.2) ∧ places 0 (u ++ [(z, [])]) = ix := by
  induction h with
  | @one x _ => exact ⟨[], x, by simp [spell], rfl, by simp, by simp [places]⟩
  | @snoc w xs ix g x _ hg _ _ ih =>
    obtain ⟨u, z, e1, e2, e3, e4⟩ := ih
    refine ⟨u ++ [(z, g)], x, ?_, ?_, ?_, ?_⟩
    · rw [← e1]; simp [spell]
    · rw [← e2]; simp
    · intro p hp
      rcases List.mem_append.1 hp with hp | hp
      · exact e3 p hp
      · simp at hp; subst hp; exact hg
    · have := places_append (u ++ [(z, g)]) [(x, [])] 0
      rw [this, ← e4, ← e1, places_append, places_append]
      simp [places, spell]
      omega

theorem pair_ne {mz : Bool} {a b : Char} (h : PermissiblePair mz a b) : a ≠ b := h.2.2.1

theorem rafsi_double {mz : Bool} {x : Str} (h : Rafsi mz x) : ∃ a b t, x = a :: b :: t ∧ a ≠ b ∧ Consonant a := by
  have hv : ∀ {a b : Char}, Consonant a → Vowel b → a ≠ b := fun h1 h2 e => vowel_not_consonant h2 (e ▸ h1)
  have hi : ∀ {a b : Char}, InitialPair a b → a ≠ b ∧ Consonant a :=
    fun h => ⟨pair_ne (initial_valid (mz := true) h), (initial_consonants h).1⟩
  have hk := rafsi_rk h
  generalize kindOf x = k at hk
  cases hk with
  | cvv h1 h2 _ => exact ⟨_, _, _, rfl, hv h1 h2, h1⟩
  | cvhv h1 h2 _ => exact ⟨_, _, _, rfl, hv h1 h2, h1⟩
  | cvc h1 h2 _ => exact ⟨_, _, _, rfl, hv h1 h2, h1⟩
  | ccv h1 _ => exact ⟨_, _, _, rfl, hi h1⟩
  | cvcc h1 h2 _ => exact ⟨_, _, _, rfl, hv h1 h2, h1⟩
  | ccvc h1 _ _ => exact ⟨_, _, _, rfl, hi h1⟩
  | cvccv h1 h2 _ _ => exact ⟨_, _, _, rfl, hv h1 h2, h1⟩
  | ccvcv h1 _ _ _ => exact ⟨_, _, _, rfl, hi h1⟩

/-- What stands before a rafsi is read off the word. -/
theorem gap_unique {mz : Bool} {g g' x t t' : Str} (hg : Gap g) (hg' : Gap g') (hx : Rafsi mz x) (e : g ++ x ++ t = g' ++ x ++ t') :
    g = g' := by
  obtain ⟨a, b, u, rfl, hab, ha⟩ := rafsi_double hx
  have hy := consonant_ne_y ha
  have hh : ∀ {g : Str}, Gap g → g ∈ [[], s%"r", s%"n", s%"y", s%"'y", s%"y'", s%"'y'"] := by
    rintro g (rfl | h)
    · simp
    · exact List.mem_cons_of_mem _ h
  have h1 := hh hg
  have h2 := hh hg'
  simp only [List.mem_cons, List.not_mem_nil, or_false] at h1 h2
  rcases h1 with rfl | rfl | rfl | rfl | rfl | rfl | rfl <;> rcases h2 with rfl | rfl | rfl | rfl | rfl | rfl | rfl <;>
    first
    | rfl
    | (exfalso; simp at e <;> grind)

theorem gaps_unique {mz : Bool} {z z' : Str} : ∀ {u u' : List (Str × Str)}, (u ++ [(z, [])]).map Prod.fst = (u' ++ [(z', [])]).map Prod.fst →
    (∀ x ∈ (u ++ [(z, [])]).map Prod.fst, Rafsi mz x) → (∀ p ∈ u, Gap p.2) → (∀ p ∈ u', Gap p.2) →
    spell (u ++ [(z, [])]) = spell (u' ++ [(z', [])]) → u = u' ∧ z = z'
  | [], [], e, _, _, _, _ => by simpa using e
  | [], _ :: _, e, _, _, _, _ => by simp at e
  | _ :: _, [], e, _, _, _, _ => by simp at e
  | (x, h) :: u, (x', h') :: u', e, hr, hg, hg', es => by
    simp only [List.cons_append, List.map_cons, List.cons.injEq] at e
    obtain ⟨rfl, e⟩ := e
    simp only [List.cons_append, spell_cons, List.append_cancel_left_eq] at es
    have hr' : ∀ x ∈ (u ++ [(z, [])]).map Prod.fst, Rafsi mz x := fun y hy => hr y (by simp only [List.cons_append, List.map_cons]; exact List.mem_cons_of_mem _ hy)
    have key : ∀ (v : List (Str × Str)) z, ∃ y k t, v ++ [(z, [])] = (y, k) :: t := by
      intro v z
      cases v with
      | nil => exact ⟨_, _, _, rfl⟩
      | cons p v => exact ⟨p.1, p.2, _, rfl⟩
    have hh : h = h' := by
      obtain ⟨y, k, t, e1⟩ := key u z
      obtain ⟨y', k', t', e2⟩ := key u' z'
      rw [e1, e2] at e es
      rw [e1] at hr'
      simp only [List.map_cons, List.cons.injEq] at e
      obtain ⟨rfl, -⟩ := e
      simp only [spell_cons] at es
      refine gap_unique (mz := mz) (x := y) (t := k ++ spell t) (t' := k' ++ spell t') (hg (x, h) (by simp)) (hg' (x, h') (by simp)) (hr' y (by simp)) ?_
      simpa [List.append_assoc] using es
    subst hh
    obtain ⟨e1, e2⟩ := gaps_unique e hr' (fun p hp => hg p (List.mem_cons_of_mem _ hp)) (fun p hp => hg' p (List.mem_cons_of_mem _ hp))
      (List.append_cancel_left es)
    rw [e1, e2]
    exact ⟨rfl, rfl⟩

/-! ## The kind of a usable rafsi -/

theorem rafsi_letter {mz : Bool} {x : Str} (h : Rafsi mz x) : ∀ c ∈ x, Vowel c ∨ Consonant c ∨ c = '\'' := by
  exact rafsi_letters h

theorem reading_snoc {mz : Bool} {x : Str} (h : Rafsi mz x) (c : Char) : reading (x ++ [c]) = x ++ readChar c := by
  have hl := rafsi_letters h
  have hf := flatMap_readChar_stable (fun d hd => (readChar_letter (hl d hd)).1)
  have hne : x ≠ [] := rafsi_ne h
  unfold reading
  split
  · rename_i cs e
    cases x with
    | nil => exact absurd rfl hne
    | cons a x =>
      simp only [List.cons_append, List.cons.injEq] at e
      exact absurd e.1 (readChar_letter (hl a (by simp))).2
  · rw [List.flatMap_append, hf]; simp

theorem readChar_cases (c : Char) : readChar c = [] ∨ (∃ d, readChar c = [d]) ∨ ∃ d, readChar c = ['i', d] ∧ ¬ Vowel d := by
  unfold readChar
  split
  · exact .inl rfl
  · repeat' split
    · exact .inr (.inl ⟨_, rfl⟩)
    · exact .inr (.inl ⟨_, rfl⟩)
    · exact .inr (.inl ⟨_, rfl⟩)
    · exact .inr (.inr ⟨_, rfl, by decide⟩)
    · exact .inr (.inl ⟨_, rfl⟩)

theorem gismu_long {mz : Bool} {x : Str} (h : Gismu mz x) (hx : Rafsi mz x) : kindOf x = .long := by
  have hl : x.length = 5 := by cases h <;> rfl
  have hk := rafsi_rk hx
  generalize kindOf x = k at hk
  cases hk <;> simp at hl <;> rfl

theorem gismu_vowel {mz : Bool} {x : Str} (h : Gismu mz x) : ∃ c, x.getLast? = some c ∧ Vowel c := by
  cases h <;> exact ⟨_, rfl, by assumption⟩

/-- A rafsi with one more letter is a gismu. -/
theorem gismu_stem {mz : Bool} {x : Str} {d : Char} (h : Gismu mz (x ++ [d])) (hx : Rafsi mz x) : kindOf x = .short := by
  have hl : (x ++ [d]).length = 5 := by
    generalize x ++ [d] = y at h
    cases h <;> rfl
  have hk := rafsi_rk hx
  generalize kindOf x = k at hk
  have hq : ¬ Consonant '\'' := by decide
  have hq2 : ¬ Vowel '\'' := by decide
  cases hk <;> simp at hl <;> first | rfl | skip
  simp only [List.cons_append, List.nil_append] at h
  cases h with
  | cvccv _ _ h _ => exact absurd h.1 hq
  | ccvcv _ h _ _ => exact absurd h hq2

theorem nucleus_first {s : Str} (h : Nucleus s) : ∃ c t, s = c :: t ∧ Vowel c := by
  have : ∀ s ∈ [s%"a", s%"e", s%"i", s%"o", s%"u", s%"ai", s%"ei", s%"oi", s%"au"], s.head?.any isVowel = true := by decide
  have h := this s h
  cases s with
  | nil => cases h
  | cons c t => exact ⟨c, t, rfl, (isVowel_iff c).1 (by simpa using h)⟩

theorem glided_first {s : Str} (h : Glided s) : ∃ c t, s = c :: t ∧ Vowel c ∧ (c = 'i' ∨ c = 'u') ∧ t ≠ [] := by
  obtain ⟨g, n, hg, hn, rfl⟩ := h
  obtain ⟨c, t, rfl, -⟩ := nucleus_first hn
  refine ⟨g, _, rfl, ?_, hg, by simp⟩
  rcases hg with rfl | rfl <;> decide

theorem syllables_consonant {b : Spec.Before} {c : Char} {w : Str} {n : Nat} (h : Syllables b (c :: w) n) (hc : Consonant c) :
    Syllables .letter w n := by
  generalize e : c :: w = v at h
  cases h with
  | nil => cases e
  | letter _ h => cases e; exact h
  | nucleus _ hs _ =>
    obtain ⟨d, t, rfl, hd⟩ := nucleus_first hs
    cases e
    exact absurd hc (vowel_not_consonant hd)
  | glided _ hs _ =>
    obtain ⟨d, t, rfl, hd, -⟩ := glided_first hs
    cases e
    exact absurd hc (vowel_not_consonant hd)

theorem syllables_vowels {b : Spec.Before} {w : Str} {n : Nat} (h : Syllables b w n) : n ≤ vowelCount w := by
  have one : ∀ {s : Str}, (∃ c t, s = c :: t ∧ Vowel c) → 1 ≤ vowelCount s := by
    rintro s ⟨c, t, rfl, h⟩
    simp [vowelCount, h]
  induction h with
  | nil => simp
  | @letter b c w n _ _ ih =>
    have : vowelCount (c :: w) = vowelCount [c] + vowelCount w := vowelCount_append [c] w
    omega
  | nucleus _ hs _ ih =>
    rw [vowelCount_append]
    have := one (nucleus_first hs)
    omega
  | glided _ hs _ ih =>
    obtain ⟨c, t, e, hc, -⟩ := glided_first hs
    rw [vowelCount_append]
    have := one ⟨c, t, e, hc⟩
    omega

/-- CCV with an `a` cannot be divided into syllables. -/
theorem syllables_ccv {a b c : Char} {n : Nat} (h : Syllables .nothing [a, b, c, 'a'] n) (ha : Consonant a) (hb : Consonant b) (hc : Vowel c) :
    False := by
  have h := syllables_consonant (syllables_consonant h ha) hb
  have last : ∀ {n}, ¬ Syllables .vowel s%"a" n := by
    intro n h
    generalize hv : Spec.Before.vowel = v at h
    generalize e : s%"a" = w at h
    cases h with
    | nil => cases e
    | letter h _ => cases e; exact absurd h (by decide)
    | nucleus h _ _ => exact h hv.symm
    | glided _ hs _ =>
      obtain ⟨d, t, rfl, -, hd, -⟩ := glided_first hs
      simp only [List.cons_append, List.cons.injEq] at e
      rw [← e.1] at hd
      revert hd; decide
  generalize hv : Spec.Before.letter = v at h
  generalize e : [c, 'a'] = w at h
  cases h with
  | nil => cases e
  | letter h _ =>
    cases e
    rcases h with h | rfl
    · exact vowel_not_consonant hc h
    · revert hc; decide
  | glided hb _ _ => exact hb hv.symm
  | @nucleus _ s w n _ hs hw =>
    obtain ⟨d, t, rfl, -⟩ := nucleus_first hs
    simp only [List.cons_append, List.cons.injEq] at e
    obtain ⟨rfl, e⟩ := e
    cases t with
    | nil =>
      simp only [List.nil_append] at e
      subst e
      exact last hw
    | cons a t =>
      simp only [List.cons_append, List.cons.injEq] at e
      obtain ⟨rfl, e⟩ := e
      have e := List.append_eq_nil_iff.1 e.symm
      rw [e.1] at hs
      have : ∀ s ∈ [s%"a", s%"e", s%"i", s%"o", s%"u", s%"ai", s%"ei", s%"oi", s%"au"], s.drop 1 ≠ s%"a" := by decide
      exact this _ hs rfl

/-- What is used of C39. -/
theorem zihevla_facts {b : Build} {s : Settings} {w : Str} (h : WordType b s w .zihevla) :
    4 ≤ (reading w).length ∧ (∃ n, Syllables .nothing (reading w) n ∧ 2 ≤ n) ∧ ∃ a b, Adjacent (reading w) a b ∧ Consonant a ∧ Consonant b := by
  obtain ⟨ps, h⟩ := h
  obtain ⟨h4, hs, u, ch, t, e, hc, hl, -⟩ := C39_zihevla h
  refine ⟨h4, hs, ?_⟩
  match ch, hl with
  | a :: b :: ch, _ => exact ⟨a, b, ⟨u, ch ++ t, by rw [e]; simp⟩, hc a (by simp), hc b (by simp)⟩

/-- No zi'evla has the shape of a rafsi that is not a gismu. -/
theorem zihevla_long {mz : Bool} {x : Str} (hx : Rafsi mz x) {n : Nat} (h4 : 4 ≤ x.length) (hs : Syllables .nothing x n) (h2 : 2 ≤ n)
    (hc : ∃ a b, Adjacent x a b ∧ Consonant a ∧ Consonant b) : kindOf x = .long := by
  obtain ⟨p, q, e, hp, hq⟩ := hc
  have hv := syllables_vowels hs
  have hk := rafsi_rk hx
  have hvc : ∀ c, Vowel c → ¬ Consonant c := fun _ => vowel_not_consonant
  have hcv : ∀ c, Consonant c → ¬ Vowel c := fun _ h h' => vowel_not_consonant h' h
  have hap : ¬ Consonant '\'' := by decide
  generalize kindOf x = k at hk
  cases hk with
  | cvhv h1 h2 h3 => simp only [adjacent_cons, adjacent_single] at e; grind
  | cvcc h1 h2 h3 => simp [vowelCount, h2, hcv _ h1, hcv _ h3.1, hcv _ h3.2.1] at hv; omega
  | ccvc h1 h2 h3 =>
    have h1 := initial_consonants h1
    simp [vowelCount, h2, hcv _ h1.1, hcv _ h1.2, hcv _ h3] at hv; omega
  | cvccv => rfl
  | ccvcv => rfl
  | _ => simp at h4

/-- … even with an `a`. -/
theorem zihevla_cut {mz : Bool} {x : Str} (hx : Rafsi mz x) {n : Nat} (h4 : 4 ≤ (x ++ s%"a").length) (hs : Syllables .nothing (x ++ s%"a") n)
    (hc : ∃ a b, Adjacent (x ++ s%"a") a b ∧ Consonant a ∧ Consonant b) : kindOf x = .short ∨ kindOf x = .long := by
  obtain ⟨p, q, e, hp, hq⟩ := hc
  have hk := rafsi_rk hx
  have hvc : ∀ c, Vowel c → ¬ Consonant c := fun _ => vowel_not_consonant
  have hap : ¬ Consonant '\'' := by decide
  have ha : ¬ Consonant 'a' := by decide
  generalize kindOf x = k at hk
  cases hk with
  | cvv => simp only [List.cons_append, List.nil_append, adjacent_cons, adjacent_single] at e; grind
  | cvhv => simp only [List.cons_append, List.nil_append, adjacent_cons, adjacent_single] at e; grind
  | cvc => simp only [List.cons_append, List.nil_append, adjacent_cons, adjacent_single] at e; grind
  | ccv h1 h2 => exact (syllables_ccv hs (initial_consonants h1).1 (initial_consonants h1).2 h2).elim
  | cvcc => exact .inl rfl
  | ccvc => exact .inl rfl
  | cvccv => exact .inr rfl
  | ccvcv => exact .inr rfl

theorem usable_kind {b : Build} {s : Settings} {v x : Str} {k : Kind} (h : Usable b s v x k) (hx : Rafsi s.allowMz x) :
    k = kindOf x ∨ (k = .short ∧ kindOf x = .long) := by
  cases h with
  | listed _ _ _ hk => exact .inl ((kindOf_iff hx).1 hk)
  | stem hd hw e =>
    obtain ⟨ps, hw⟩ := hw
    obtain ⟨-, hg, -⟩ := C03_gismu_iff.1 hw
    rw [e, reading_snoc hx] at hg
    rcases readChar_cases _ with h | ⟨d, h⟩ | ⟨d, h, hd⟩
    · rw [h, List.append_nil] at hg
      exact .inr ⟨rfl, gismu_long hg hx⟩
    · rw [h] at hg
      exact .inl (gismu_stem hg hx).symm
    · rw [h] at hg
      exfalso
      obtain ⟨c, hc, hv⟩ := gismu_vowel hg
      rw [show x ++ ['i', d] = (x ++ ['i']) ++ [d] by simp, List.getLast?_concat] at hc
      cases hc
      exact hd hv
  | word _ hw =>
    have hrd := reading_letters (rafsi_letters hx)
    left
    symm
    rcases hw with ⟨ps, hw⟩ | hw
    · obtain ⟨-, hg, -⟩ := C03_gismu_iff.1 hw
      rw [hrd] at hg
      exact gismu_long hg hx
    · obtain ⟨h4, ⟨n, hs, h2⟩, hc⟩ := zihevla_facts hw
      rw [hrd] at h4 hs hc
      exact zihevla_long hx h4 hs h2 hc
  | rafsi _ _ hk => exact .inl ((kindOf_iff hx).1 hk)
  | zihevla _ h0 _ =>
    have := rafsi_tarmi hx
    rw [shapeScore_other] at h0; exact (h0.elim this.1 this.2).elim
  | experimental _ h0 _ _ _ =>
    have := rafsi_tarmi hx
    rw [shapeScore_other] at h0; exact (h0.elim this.1 this.2).elim
  | cut hd1 hd2 hw _ =>
    have hrd : reading (x ++ s%"a") = x ++ s%"a" := reading_snoc hx 'a'
    rcases hw with ⟨ps, hw⟩ | hw
    · obtain ⟨-, hg, -⟩ := C03_gismu_iff.1 hw
      rw [hrd] at hg
      exact .inl (gismu_stem hg hx).symm
    · obtain ⟨h4, ⟨n, hs, -⟩, hc⟩ := zihevla_facts hw
      rw [hrd] at h4 hs hc
      rcases zihevla_cut hx h4 hs hc with h | h
      · exact .inl h.symm
      · exact .inr ⟨rfl, h⟩

/-! ## The word found -/

/-- What `get_lujvo_with_analytics` returns, slot by slot. -/
theorem found_slots {b : Build} {s : Settings} {g : Bool} {vs : List Str} {r : Str × Int × List (Nat × Nat)}
    (h : getLujvoFromList (program b) s g vs = .ok r) :
    ∃ zs hy, Represents b s vs.length 0 vs zs ∧ Legal s g zs hy ∧ r.1 = wordOf zs hy ∧ r.2.1 = cost zs hy ∧
      Layout s.allowMz r.1 (zs.map Slot.rafsi) r.2.2 := by
  obtain ⟨ll, rs, c, l, hll, hp, hb, hct, hcc, hl, hlv, rfl, -⟩ := getLujvoFromList_ok h
  have hr : RightEnd g l := by
    rcases hlv with ⟨h1, h2⟩ | ⟨h1, h2⟩
    · exact .inl ⟨h1, h2⟩
    · exact .inr ⟨h1, h2⟩
  obtain ⟨zs, hy, rfl, hrep, hc, hL, hw, hsc⟩ := built_slots hll hp hb hct hcc hl hr
  have hlen := rafsiListListFrom_length hll
  have := (chosen_length hc).1
  obtain ⟨⟨body, suf, e, hlay, hs⟩, -⟩ := hb.laid hc (by omega)
  refine ⟨zs, hy, hrep, hL, hw, hsc, ?_⟩
  dsimp only
  have hly : l ≠ 'y' := by
    rcases hlv with ⟨h, -⟩ | ⟨h, -⟩ <;> rintro rfl <;> exact absurd h (by decide)
  have : suf = [] := by
    rcases hs with h | h | h
    · exact h
    · rw [e, h] at hl; simp at hl; exact absurd hl.symm hly
    · rw [e, h] at hl; simp at hl; exact absurd hl.symm hly
  rw [e, this, List.append_nil]
  exact hlay

/-- The slots fit their rafsi, and any other slots for the same rafsi represent the same components. -/
theorem represents_same {b : Build} {s : Settings} {n : Nat} : ∀ {vs : List Str} {i : Nat} {zs : List Slot}, i + vs.length = n →
    Represents b s n i vs zs → (∀ z ∈ zs, Rafsi s.allowMz z.rafsi) → (∀ z ∈ zs.dropLast, kindOf z.rafsi ≠ .long) →
    Fits (i == 0) (zs.map Slot.rafsi) zs ∧ ∀ zs', Fits (i == 0) (zs.map Slot.rafsi) zs' → Represents b s n i vs zs' := by
  intro vs
  induction vs with
  | nil =>
    rintro i zs - ⟨⟩ - -
    exact ⟨.nil, by rintro zs' ⟨⟩; exact .nil⟩
  | cons v vs ih =>
    rintro i zs hn h hr hlong
    cases h with
    | @cons _ _ _ z zs hu hw h =>
      have hzr := hr z (by simp)
      have hzl := represents_length h
      have hlast : (i + 1 == n) = (zs.map Slot.rafsi).isEmpty := by
        cases zs with
        | nil => simp at hzl; simp [← hzl] at hn ⊢; exact hn
        | cons y xs =>
          simp at hn hzl ⊢; omega
      obtain ⟨ih1, ih2⟩ := ih (i := i + 1) (by simp at hn; omega) h (fun y hy => hr y (List.mem_cons_of_mem _ hy)) (by
        intro y hy
        refine hlong y ?_
        cases zs with
        | nil => simp at hy
        | cons y' zs => rw [List.dropLast_cons_cons]; exact List.mem_cons_of_mem _ hy)
      have hi : (i + 1 == 0) = false := by simp
      rw [hi] at ih1 ih2
      have hk : z.kind = kindOf z.rafsi := by
        rcases usable_kind hu hzr with h | ⟨h1, h2⟩
        · exact h
        · exfalso
          cases zs with
          | cons y' zs => exact hlong z (by simp) h2
          | nil =>
            have : (i + 1 == n) = true := by rw [hlast]; rfl
            rw [this] at hw
            obtain ⟨hh, -, ht⟩ := hw
            rw [h1] at ht
            rcases ht with ⟨-, h⟩ | ⟨-, -, c, hc, hv⟩
            · cases h
            · have hk := rafsi_rk hzr
              rw [h2] at hk
              generalize z.rafsi = x at hk hc
              cases hk with
              | cvccv _ _ _ h => cases hc; exact hv h
              | ccvcv _ _ _ h => cases hc; exact hv h
      refine ⟨.cons rfl hk (hlast ▸ hw) ih1, ?_⟩
      intro zs' hf
      cases hf with
      | @cons _ _ _ z' zs'' e1 e2 e3 e4 =>
        refine .cons ?_ (hlast ▸ e3) (ih2 _ e4)
        rw [e1, e2, ← hk]
        exact hu

/-- The search returns the canonical word. -/
theorem found_made {b : Build} {s : Settings} {g : Bool} {vs : List Str} {r : Str × Int × List (Nat × Nat)} {zs : List Slot} {hy : Str}
    (h : getLujvoFromList (program b) s g vs = .ok r) (hrep : Represents b s vs.length 0 vs zs) (hL : Legal s g zs hy)
    (hw : r.1 = wordOf zs hy) (hsc : r.2.1 = cost zs hy) (hlay : Layout s.allowMz r.1 (zs.map Slot.rafsi) r.2.2)
    (hr : ∀ z ∈ zs, Rafsi s.allowMz z.rafsi) (hlong : ∀ z ∈ zs.dropLast, kindOf z.rafsi ≠ .long) :
    ∃ l, Made s g l ∧ Apt s g l ∧ r.1 = spell l ∧ l.map Prod.fst = zs.map Slot.rafsi ∧ places 0 l = r.2.2 := by
  obtain ⟨hf, hall⟩ := represents_same (by simp) hrep hr hlong
  have h2 : 2 ≤ zs.length := by
    obtain ⟨y, z, rest, rfl, -⟩ := hL.first
    simp
  obtain ⟨l, hl, e⟩ := canon_exists s g (xs := zs.map Slot.rafsi) (by simpa using h2)
  have hxs : ∀ x ∈ zs.map Slot.rafsi, Rafsi s.allowMz x := by
    intro x hx
    obtain ⟨z, hz, rfl⟩ := List.mem_map.1 hx
    exact hr z hz
  have hM : Made s g l := by
    refine ⟨hl, fun p hp => hxs p.1 (by rw [← e]; exact List.mem_map_of_mem hp), fun p hp => ?_⟩
    have : p.1 ∈ (zs.map Slot.rafsi).dropLast := by
      rw [← e, ← List.map_dropLast]; exact List.mem_map_of_mem hp
    rw [← List.map_dropLast] at this
    obtain ⟨z, hz, e⟩ := List.mem_map.1 this
    rw [← e]
    exact hlong z hz
  have hf' : Fits true (l.map Prod.fst) zs := by rw [e]; exact hf
  have hA : Apt s g l := by
    refine ⟨legal_enough hl hM.rafsi hf' hL, ?_⟩
    rw [canon_last hl hM.rafsi]
    exact legal_last (made_xs hM) hf' hL
  obtain ⟨zs', hy', hf2, hL2, hw2⟩ := canon_legal hl hM.rafsi hM.long hA.enough hA.ends
  have hword : r.1 = spell l := by
    rw [hw]
    rcases canon_min hl hM.rafsi hf' hL with h1 | h1
    · exact h1
    · exfalso
      have c1 := cost_letters (made_xs hM) hf' hL
      have c2 := cost_letters (made_xs hM) hf2 hL2
      have := (getLujvoFromList_best.1 r h).2 (wordOf zs' hy') (cost zs' hy') ⟨zs', hy', hall _ (by rw [← e]; exact hf2), hL2, rfl, rfl⟩
      rw [hsc] at this
      rw [hw2] at c2
      omega
  refine ⟨l, hM, hA, hword, e, ?_⟩
  obtain ⟨u, z, e1, e2, e3, e4⟩ := layout_pairs hlay
  obtain ⟨u', z', rfl, hgap⟩ : ∃ u' z', l = u' ++ [(z', [])] ∧ ∀ p ∈ u', Gap p.2 := by
    obtain ⟨u', z', rfl⟩ := canon_end hl
    refine ⟨u', z', rfl, fun p hp => ?_⟩
    have hgl := canon_glue hl p (by simp [hp])
    by_cases hn : p.2 = []
    · exact .inl hn
    · exact .inr (hgl.hyphen hn)
  have := gaps_unique (mz := s.allowMz) (u := u) (u' := u') (z := z) (z' := z') (by rw [e2, e]) (by rw [e2]; exact hxs) e3 hgap (by rw [e1, hword])
  rw [← e4, this.1, this.2]

/-- `get_rafsi_indices` of the pieces. -/
theorem indices_places {mz : Bool} : ∀ {l : List (Str × Str)} {n : Nat}, (∀ p ∈ l, Rafsi mz p.1 ∧ Glue p.2) →
    rafsiIndicesFrom n (flat l) = places n l
  | [], _, _ => rfl
  | (x, h) :: l, n, hr => by
    have hx := (hr (x, h) (by simp)).1
    have hg := (hr (x, h) (by simp)).2
    have hxh : HYPHENS.contains x = false := by
      obtain ⟨a, b, t, rfl, hab, ha⟩ := rafsi_double hx
      have hl := rafsi_length hx
      have := consonant_ne_y ha
      cases hc : HYPHENS.contains (a :: b :: t) with
      | false => rfl
      | true =>
        rw [List.contains_iff_mem] at hc
        simp only [HYPHENS, List.mem_cons, List.not_mem_nil, or_false] at hc
        simp at hl
        rcases hc with h | h | h | h | h | h <;> simp at h <;> grind
    have ih := fun n => indices_places (l := l) (n := n) (fun p hp => hr p (List.mem_cons_of_mem _ hp))
    by_cases hn : h = []
    · subst hn
      rw [flat_bare]
      simp only [rafsiIndicesFrom, hxh, Bool.false_eq_true, if_false, places, ih]
      simp
    · rw [flat_hyphen hn]
      have hhh : HYPHENS.contains h = true := by
        rw [List.contains_iff_mem]; exact hg.hyphen hn
      simp only [rafsiIndicesFrom, hxh, hhh, Bool.false_eq_true, if_false, if_true, places, ih]

end Jvotci
