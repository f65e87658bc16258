import Verif.Props.MzFound
import Verif.Props.RoundTripWords
import Verif.Props.Cluster

/-!
# Helper lemmas: making a lujvo from what `get_veljvo` says about it
-/

namespace Jvotci

open Spec

/-! ## Short words that are brivla -/

theorem ccv_check : (initialPairs.all fun p => (s%"aeiou").all fun v => [YHyphens.standard, .allowY, .forceY].all fun y => [true, false].all fun mz =>
    isBrivla .linked { yHyphens := y, allowMz := mz } (p ++ [v]) == .ok false &&
    isBrivla .linked { yHyphens := y, allowMz := mz } (p ++ [v, 'a']) == .ok false) = true := by decide +kernel

theorem ccv_not_brivla {y : YHyphens} {mz : Bool} {a b v : Char} (h : InitialPair a b) (hv : Vowel v) :
    isBrivla .linked { yHyphens := y, allowMz := mz } [a, b, v] = .ok false ∧
    isBrivla .linked { yHyphens := y, allowMz := mz } [a, b, v, 'a'] = .ok false := by
  have h1 := List.all_eq_true.1 ccv_check _ h
  have h2 := List.all_eq_true.1 h1 v hv
  have h3 := List.all_eq_true.1 h2 y (by cases y <;> simp)
  have h4 := List.all_eq_true.1 h3 mz (by cases mz <;> simp)
  simpa using h4

theorem brivla_pair {y : YHyphens} {mz : Bool} {x : Str} (hl : ∀ c ∈ x, Vowel c ∨ Consonant c ∨ c = '\'')
    (h : isBrivla .linked { yHyphens := y, allowMz := mz } x = .ok true) : ∃ a b, Adjacent x a b ∧ Consonant a ∧ Consonant b := by
  obtain ⟨t, ps, h, ht⟩ := C16_is_brivla.1.1 h
  obtain ⟨a, b, ha, hb, h⟩ := C36_cluster_partial h ht rfl rfl
  rw [reading_letters hl] at h
  rcases h with ⟨u, v, e⟩ | ⟨u, v, e⟩
  · exact ⟨a, b, ⟨u, v, by simpa using e⟩, ha, hb⟩
  · have := hl 'y' (by rw [e]; simp)
    exact absurd this (by decide)

theorem letters_a {x : Str} (hl : ∀ c ∈ x, Vowel c ∨ Consonant c ∨ c = '\'') : ∀ c ∈ x ++ s%"a", Vowel c ∨ Consonant c ∨ c = '\'' := by
  intro c hc
  rcases List.mem_append.1 hc with hc | hc
  · exact hl c hc
  · simp at hc; subst hc; exact .inl (by decide)

/-- A rafsi that is a brivla is a gismu. -/
theorem rafsi_brivla {y : YHyphens} {mz : Bool} {x : Str} (h : Rafsi mz x) (hb : isBrivla .linked { yHyphens := y, allowMz := mz } x = .ok true) :
    Gismu mz x := by
  obtain ⟨l, hl, hv⟩ := C16_is_brivla.2.2.2 hb
  obtain ⟨p, q, e, hp, hq⟩ := brivla_pair (rafsi_letters h) hb
  rw [reading_letters (rafsi_letters h)] at hl
  have hvc : ∀ c, Vowel c → ¬ Consonant c := fun _ => vowel_not_consonant
  have hap : ¬ Consonant '\'' := by decide
  cases h with
  | cvv _ h1 h2 => simp only [adjacent_cons, adjacent_single] at e; grind
  | cvhv _ h1 h2 => simp only [adjacent_cons, adjacent_single] at e; grind
  | cvc _ h1 h2 => cases hl; exact absurd h2 (hvc _ hv)
  | ccv h1 h2 => rw [(ccv_not_brivla h1 h2).1] at hb; cases hb
  | cvcc h1 h2 h3 => cases hl; exact absurd h3.2.1 (hvc _ hv)
  | ccvc h1 h2 h3 => cases hl; exact absurd h3 (hvc _ hv)
  | gismu h => exact h

/-- A rafsi, not a gismu, that is a brivla with a behind it is a gismu without its last vowel. -/
theorem rafsi_a_brivla {y : YHyphens} {mz : Bool} {x : Str} (h : Rafsi mz x) (hk : ¬ Gismu mz x)
    (hb : isBrivla .linked { yHyphens := y, allowMz := mz } (x ++ s%"a") = .ok true) : Gismu mz (x ++ s%"a") := by
  obtain ⟨p, q, e, hp, hq⟩ := brivla_pair (letters_a (rafsi_letters h)) hb
  have hvc : ∀ c, Vowel c → ¬ Consonant c := fun _ => vowel_not_consonant
  have ha : ¬ Consonant 'a' := by decide
  have hap : ¬ Consonant '\'' := by decide
  cases h with
  | cvv _ h1 h2 => simp only [List.cons_append, List.nil_append, adjacent_cons, adjacent_single] at e; grind
  | cvhv _ h1 h2 => simp only [List.cons_append, List.nil_append, adjacent_cons, adjacent_single] at e; grind
  | cvc _ h1 h2 => simp only [List.cons_append, List.nil_append, adjacent_cons, adjacent_single] at e; grind
  | ccv h1 h2 => rw [show ∀ a b c : Char, [a, b, c] ++ s%"a" = [a, b, c, 'a'] from fun _ _ _ => rfl, (ccv_not_brivla h1 h2).2] at hb; cases hb
  | cvcc h1 h2 h3 => exact .cvccv h1 h2 h3 (by decide)
  | ccvc h1 h2 h3 => exact .ccvcv h1 h2 h3 (by decide)
  | gismu h => exact absurd h hk

/-! ## What `get_veljvo` gives for a rafsi -/

/-- The component `v` has the rafsi `x` and is of the kinds of which `get_lujvo` always finds a lujvo. -/
structure Names (s : Settings) (v x : Str) : Prop where
  usable : Usable .linked s v x (kindOf x)
  spelled : Spelled v
  short : v.length < 10 ^ 90
  word : WordOrRafsi s.allowMz v
  noMz : '-' ∉ v → NoMzWord s v

theorem table_named_check : RAFSI_LIST.all (fun e => e.2.isEmpty || (e.1.all (fun c => isVowel c || isConsonant c || c == '\'') && e.1.any isVowel &&
    decide (e.1.length < 100))) = true := by decide +kernel

theorem table_letters {v : Str} {rs : List Str} {x : Str} (h : (v, rs) ∈ RAFSI_LIST) (hx : x ∈ rs) :
    (∀ c ∈ v, Vowel c ∨ Consonant c ∨ c = '\'') ∧ (∃ c ∈ v, Vowel c) ∧ v.length < 100 := by
  have := List.all_eq_true.1 table_named_check _ h
  have hne : rs.isEmpty = false := by cases rs with
    | nil => simp at hx
    | cons => rfl
  simp only [hne, Bool.false_or, Bool.and_eq_true, List.all_eq_true, List.any_eq_true, decide_eq_true_eq] at this
  obtain ⟨⟨h1, h2⟩, h3⟩ := this
  refine ⟨fun c hc => ?_, ?_, h3⟩
  · have := h1 c hc
    simp only [Bool.or_eq_true, isVowel_iff, isConsonant_iff, beq_iff_eq] at this
    rcases this with (h | h) | h
    · exact .inl h
    · exact .inr (.inl h)
    · exact .inr (.inr h)
  · obtain ⟨c, hc, hv⟩ := h2
    exact ⟨c, hc, (isVowel_iff c).1 hv⟩

theorem table_noMz' {v : Str} {rs : List Str} (h : (v, rs) ∈ RAFSI_LIST) : NoMz v := by
  rintro ⟨u, w, rfl⟩
  have := List.all_eq_true.1 (List.all_eq_true.1 table_noMz _ h) u.length (by simp)
  simp at this

theorem letters_spelled {v : Str} (h : ∀ c ∈ v, Vowel c ∨ Consonant c ∨ c = '\'') (hv : ∃ c ∈ v, Vowel c) : Spelled v :=
  ⟨v, 0, 0, by simp, hv, h, fun _ => rfl, fun h => absurd rfl h⟩

theorem gismu_small {mz : Bool} {x : Str} (h : Gismu mz x) : x.length = 5 ∧ ∃ c ∈ x, Vowel c := by
  obtain ⟨c, hc, hv⟩ := gismu_vowel h
  exact ⟨by cases h <;> rfl, c, List.mem_of_getLast? hc, hv⟩

theorem gismu_type {s : Settings} {x : Str} (hg : Gismu s.allowMz x) : WordType .linked s x .gismu := by
  have hne : x ≠ [] := by rintro rfl; cases hg
  have hrd := reading_letters (rafsi_letters (.gismu hg))
  exact ⟨[x], C03_gismu_iff.2 ⟨hne, by rw [hrd]; exact hg, by rw [hrd]⟩⟩

theorem gismu_noMzWord {s : Settings} {x : Str} (hg : Gismu s.allowMz x) : NoMzWord s x := fun h => .inl (h ▸ hg)

theorem big : 200 < 10 ^ 90 := by decide

theorem names_listed {s : Settings} {v x : Str} {rs : List Str} (hr : Rafsi s.allowMz x) (h : (v, rs) ∈ RAFSI_LIST) (hx : x ∈ rs) : Names s v x := by
  obtain ⟨h1, h2, h3⟩ := table_letters h hx
  have hb := big
  exact ⟨.listed (fun h => letters_no_dash h1 (List.mem_of_getLast? h)) h hx ((kindOf_iff hr).2 rfl), letters_spelled h1 h2, by omega,
    .inl (letters_no_dash h1), fun _ _ => .inr (table_noMz' h)⟩

theorem names_stem {s : Settings} {x : Str} {c : Char} (hg : Gismu s.allowMz (x ++ [c])) : Names s (x ++ [c]) x := by
  obtain ⟨h1, h2⟩ := gismu_small hg
  obtain ⟨hr, -, hk, -⟩ := gismu_cut hg
  have hl := rafsi_letters (.gismu hg)
  have hb := big
  refine ⟨?_, letters_spelled hl h2, by omega, .inl (letters_no_dash hl), fun _ => gismu_noMzWord hg⟩
  rw [hk]
  exact .stem (fun h => letters_no_dash hl (List.mem_of_getLast? h)) (gismu_type hg) rfl

theorem names_gismu {s : Settings} {x : Str} (hg : Gismu s.allowMz x) : Names s x x := by
  obtain ⟨h1, h2⟩ := gismu_small hg
  have hl := rafsi_letters (.gismu hg)
  have hb := big
  refine ⟨?_, letters_spelled hl h2, by omega, .inl (letters_no_dash hl), fun _ => gismu_noMzWord hg⟩
  rw [gismu_long hg (.gismu hg)]
  exact .word (fun h => letters_no_dash hl (List.mem_of_getLast? h)) (.inl (gismu_type hg))

theorem rafsi_noApos {mz : Bool} {x : Str} (hr : Rafsi mz x) : x.getLast? ≠ some '\'' := by
  obtain ⟨c, hc, hcv⟩ := rafsi_lastLetter hr
  rw [hc]
  rintro ⟨⟩
  revert hcv; decide

theorem rafsi_hasVowel {mz : Bool} {x : Str} (hr : Rafsi mz x) : ∃ c ∈ x, Vowel c := by
  cases hr with
  | cvv _ h _ => exact ⟨_, by simp, h⟩
  | cvhv _ h _ => exact ⟨_, by simp, h⟩
  | cvc _ h _ => exact ⟨_, by simp, h⟩
  | ccv _ h => exact ⟨_, by simp, h⟩
  | cvcc _ h _ => exact ⟨_, by simp, h⟩
  | ccvc _ h _ => exact ⟨_, by simp, h⟩
  | gismu h => exact (gismu_small h).2

theorem names_dash {s : Settings} {x : Str} (hr : Rafsi s.allowMz x) : Names s (dash x) x := by
  have h5 := rafsi_length hr
  have hb := big
  exact ⟨.rafsi (dash_dashed hr) hr ((kindOf_iff hr).2 rfl),
    ⟨x, 1, 1, rfl, rafsi_hasVowel hr, rafsi_letters hr, by simp, fun _ => rafsi_noApos hr⟩, by simp [dash]; omega, .inr ⟨x, 1, 0, rfl, hr⟩,
    fun h => absurd (by simp [dash]) h⟩

theorem names_cut {s : Settings} {x : Str} (hg : Gismu s.allowMz (x ++ s%"a")) : Names s (x ++ s%"-") x := by
  obtain ⟨hr, -, hk, -⟩ := gismu_cut hg
  have h5 := rafsi_length hr
  have hb := big
  have hl := rafsi_letters hr
  refine ⟨?_, ⟨x, 0, 1, rfl, rafsi_hasVowel hr, hl, by simp, fun _ => rafsi_noApos hr⟩, by simp; omega, .inr ⟨x, 0, 0, rfl, hr⟩,
    fun h => absurd (by simp) h⟩
  rw [hk]
  exact .cut (j := 0) rfl (letters_no_dash hl) (.inl (gismu_type hg)) (fun h => absurd h (by omega))

theorem format_names {s : Settings} {ps : List Str} {i : Nat} {x v : Str} (hr : Rafsi s.allowMz x) (hk : kindOf x ≠ .long ∨ i + 1 = ps.length)
    (h : formatPiece .linked s ps i x = .ok v) : Names s v x := by
  unfold formatPiece at h
  dsimp only at h
  split at h
  · rename_i g hs
    cases h
    rcases searchSelrafsi_some hs with ⟨rs, h1, h2⟩ | ⟨h4, hq, hne, u, rs, hu, rfl, hl⟩
    · exact names_listed hr h1 h2
    · rcases table_gismu hl (by simp [h4]) (by
        rw [List.mem_append]
        rintro (h | h)
        · exact hq h
        · simp at h; subst h; exact absurd hu (by decide)) with h | h
      · exact names_stem (gismu_mono h)
      · exfalso
        have : x = s%"Ping" := (List.append_inj' (t₁ := [u]) (t₂ := s%"o") h rfl).1
        subst this
        obtain ⟨c, t, e, hc⟩ := rafsi_first hr
        cases e
        exact absurd hc (by decide)
  · obtain ⟨ny, hny, h⟩ := bind_ok h
    obtain ⟨y1, hy1, h⟩ := bind_ok h
    have hnl : ny = true → ¬ Gismu s.allowMz x := by
      rintro rfl hg
      split at hny
      · rcases hk with hk | hk
        · exact hk (gismu_long hg (.gismu hg))
        · omega
      · cases hny
    split at h
    · rename_i hy
      subst hy
      cases h
      split at hy1
      · rename_i hn
        exact names_cut (rafsi_a_brivla hr (hnl hn) hy1)
      · cases hy1
    · obtain ⟨y2, hy2, h⟩ := bind_ok h
      split at h
      · rename_i hy
        subst hy
        cases h
        exact names_gismu (rafsi_brivla hr hy2)
      · rename_i hy
        have hng : ¬ Gismu s.allowMz x := by
          intro hg
          rw [gismu_brivla hg] at hy2
          cases hy2
          exact hy rfl
        obtain ⟨y3, hy3, h⟩ := bind_ok h
        split at h
        · rename_i hy
          subst hy
          cases h
          split at hy3
          · exact names_cut (rafsi_a_brivla hr hng hy3)
          · cases hy3
        · cases h
          exact names_dash hr

theorem spelled_reading {v : Str} (h : Spelled v) : reading v = v := by
  obtain ⟨x, i, j, rfl, -, hl, -⟩ := h
  refine reading_asRead fun d hd => ?_
  have hda : readChar '-' = s%"-" ∧ '-' ≠ '.' := by decide
  rcases List.mem_append.1 hd with hd | hd
  · rcases List.mem_append.1 hd with hd | hd
    · rw [(List.mem_replicate.1 hd).2]; exact hda
    · exact readChar_letter (hl d hd)
  · rw [(List.mem_replicate.1 hd).2]; exact hda

theorem rafsi_notHyphen {mz : Bool} {x : Str} (hx : Rafsi mz x) : (HYPHENS.contains x || x.isEmpty) = false := by
  have hl := rafsi_length hx
  rw [Bool.or_eq_false_iff]
  constructor
  · cases hc : HYPHENS.contains x with
    | false => rfl
    | true =>
      exfalso
      have := hyphens_iff.1 hc
      obtain ⟨a, b, t, rfl, -, ha⟩ := rafsi_double hx
      have := consonant_ne_y ha
      simp only [Hyphen, List.mem_cons, List.not_mem_nil, or_false] at *
      simp at hl
      grind
  · cases x with
    | nil => simp at hl
    | cons => rfl

theorem selrafsi_names {s : Settings} {ps : List Str} : ∀ {m : List (Str × Str)} {i : Nat} {r : List Str},
    (∀ p ∈ m, Rafsi s.allowMz p.1 ∧ Glue p.2) → (∀ p ∈ m.dropLast, kindOf p.1 ≠ .long) → (∀ p, m.getLast? = some p → p.2 = []) →
    i + (flat m).length = ps.length → selrafsiFrom .linked s ps i (flat m) = .ok r → All2 (Names s) r (m.map Prod.fst)
  | [], i, r, _, _, _, _, h => by cases h; exact .nil
  | (x, g) :: m, i, r, hr, hk, hl, hi, h => by
    obtain ⟨hx, hg⟩ := hr (x, g) (by simp)
    have hr' : ∀ p ∈ m, Rafsi s.allowMz p.1 ∧ Glue p.2 := fun p hp => hr p (List.mem_cons_of_mem _ hp)
    have hk' : ∀ p ∈ m.dropLast, kindOf p.1 ≠ .long := by
      intro p hp
      refine hk p ?_
      cases m with
      | nil => simp at hp
      | cons q m => rw [List.dropLast_cons_cons]; exact List.mem_cons_of_mem _ hp
    have hl' : ∀ p, m.getLast? = some p → p.2 = [] := by
      intro p hp
      refine hl p ?_
      cases m with
      | nil => simp at hp
      | cons q m => rw [List.getLast?_cons_cons]; exact hp
    have hkx : kindOf x ≠ .long ∨ i + 1 = ps.length := by
      cases m with
      | nil =>
        have : g = [] := hl (x, g) rfl
        subst this
        exact .inr (by simpa [flat, piecesOf] using hi)
      | cons q m => exact .inl (hk (x, g) (by simp))
    by_cases hn : g = []
    · subst hn
      rw [flat_bare] at hi h
      simp only [List.length_cons] at hi
      unfold selrafsiFrom at h
      rw [rafsi_notHyphen hx] at h
      simp only [Bool.false_eq_true, if_false] at h
      obtain ⟨v, hv, h⟩ := bind_ok h
      obtain ⟨r', hr2, h⟩ := bind_ok h
      cases h
      exact .cons (format_names hx hkx hv) (selrafsi_names hr' hk' hl' (by omega) hr2)
    · rw [flat_hyphen hn] at hi h
      simp only [List.length_cons] at hi
      have hhh : (HYPHENS.contains g || g.isEmpty) = true := by
        rw [hyphens_iff.2 (hg.hyphen hn)]; rfl
      unfold selrafsiFrom at h
      rw [rafsi_notHyphen hx] at h
      simp only [Bool.false_eq_true, if_false] at h
      obtain ⟨v, hv, h⟩ := bind_ok h
      obtain ⟨r', hr2, h⟩ := bind_ok h
      cases h
      unfold selrafsiFrom at hr2
      rw [hhh] at hr2
      simp only [if_true] at hr2
      exact .cons (format_names hx hkx hv) (selrafsi_names hr' hk' hl' (by omega) hr2)

/-- Components that have the rafsi are represented by slots that hold the rafsi. -/
theorem names_represents {s : Settings} {n : Nat} : ∀ {xs vs : List Str} {i : Nat} {zs : List Slot},
    All2 (Names s) vs xs → i + xs.length = n → Fits (i == 0) xs zs → Represents .linked s n i vs zs := by
  intro xs
  induction xs with
  | nil =>
    intro vs i zs ha _ hf
    cases ha
    cases hf
    exact .nil
  | cons x xs ih =>
    intro vs i zs ha hn hf
    have hlast : (i + 1 == n) = xs.isEmpty := by
      cases xs with
      | nil => simp at hn ⊢; exact hn
      | cons y xs => simp at hn ⊢; omega
    have hi : (i + 1 == 0) = false := by simp
    cases ha with
    | cons hv ha =>
      cases hf with
      | cons e hk hw hz =>
        refine .cons (by rw [e, hk]; exact hv.usable) (by rw [hlast]; exact hw) (ih ha (by simp at hn; omega) (by rw [hi]; exact hz))

/-! ## The score -/

theorem glue_vowels {h : Str} (hg : Glue h) : vowelCount h = 0 := by
  rcases hg with rfl | rfl | rfl | rfl | rfl <;> decide

theorem spell_vowels : ∀ {m : List (Str × Str)}, (∀ p ∈ m, Glue p.2) → vowelCount (spell m) = vowelCount (m.map Prod.fst).flatten
  | [], _ => rfl
  | (x, h) :: m, hg => by
    rw [spell_cons, vowelCount_append, vowelCount_append, glue_vowels (hg (x, h) (by simp)), spell_vowels fun p hp => hg p (List.mem_cons_of_mem _ hp),
      List.map_cons, List.flatten_cons, vowelCount_append]
    simp only [Nat.zero_add]

/-- Hyphens that need not be there make the word longer. -/
theorem ext_cost {y : YHyphens} {l m : List (Str × Str)} (h : Ext y l m) : spell m = spell l ∨ letterCost (spell l) + 1000 ≤ letterCost (spell m) := by
  induction h with
  | nil => exact .inl rfl
  | @same p _ _ _ ih =>
    obtain ⟨x, h⟩ := p
    rw [spell_cons, spell_cons]
    rcases ih with ih | ih
    · exact .inl (by rw [ih])
    · refine .inr ?_
      simp only [letterCost_append]
      omega
  | @extra x x' h h' l m _ _ _ ih =>
    refine .inr ?_
    rw [spell_cons x, spell_cons x]
    simp only [letterCost_append]
    have hp : 1000 ≤ letterCost (if x'.head? = some 'r' then s%"n" else s%"r") := letterCost_pos (by split <;> simp)
    have h0 : letterCost ([] : Str) = 0 := rfl
    rcases ih with ih | ih
    · rw [ih]; omega
    · omega

theorem spell_short {mz : Bool} : ∀ {m : List (Str × Str)}, (∀ p ∈ m, Rafsi mz p.1) → 3 * m.length ≤ (spell m).length
  | [], _ => by simp
  | (x, h) :: m, hr => by
    have := spell_short fun p hp => hr p (List.mem_cons_of_mem _ hp)
    have := rafsi_length (hr (x, h) (by simp))
    rw [spell_cons]
    simp only [List.length_append, List.length_cons]
    simp at this
    omega

theorem tie_small {w : Str} (h : TieShape w) : w.length ≤ 7 ∧ reading w = w := by
  have hl : (pattern w).length = w.length := by simp [pattern]
  have hk : (pattern w).length ≤ 7 ∧ ∀ d ∈ pattern w, d ≠ '?' := by
    unfold TieShape at h
    simp only [List.mem_cons, List.not_mem_nil, or_false] at h
    rcases h with h | h | h | h <;> rw [h] <;> decide
  refine ⟨by omega, reading_letters fun c hc => ?_⟩
  have := hk.2 _ (List.mem_map.2 ⟨c, hc, rfl⟩)
  by_cases h1 : Vowel c
  · exact .inl h1
  · by_cases h2 : Consonant c
    · exact .inr (.inl h2)
    · by_cases h3 : c = '\''
      · exact .inr (.inr h3)
      · simp [h1, h2, h3] at this

theorem shapes_flat {mz : Bool} : ∀ {m : List (Str × Str)}, (∀ p ∈ m, Rafsi mz p.1 ∧ Glue p.2) →
    (flat m).filter (fun p => ¬ Hyphen p) = m.map Prod.fst
  | [], _ => rfl
  | (x, h) :: m, hr => by
    obtain ⟨hx, hg⟩ := hr (x, h) (by simp)
    have ih := shapes_flat fun p hp => hr p (List.mem_cons_of_mem _ hp)
    have hxh : ¬ Hyphen x := by
      intro e
      have := rafsi_notHyphen hx
      rw [hyphens_iff.2 e] at this
      cases this
    by_cases hn : h = []
    · subst hn
      rw [flat_bare, List.filter_cons_of_pos (by simpa using hxh), ih]; rfl
    · rw [flat_hyphen hn, List.filter_cons_of_pos (by simpa using hxh), List.filter_cons_of_neg (by simpa using hg.hyphen hn), ih]; rfl

theorem all2_length {α β : Type} {r : α → β → Prop} {l : List α} {l' : List β} (h : All2 r l l') : l.length = l'.length := by
  induction h with
  | nil => rfl
  | cons _ _ ih => simp [ih]

theorem all2_left {α β : Type} {r : α → β → Prop} {l : List α} {l' : List β} (h : All2 r l l') : ∀ a ∈ l, ∃ b ∈ l', r a b := by
  induction h with
  | nil => simp
  | cons h1 _ ih =>
    intro a ha
    rcases List.mem_cons.1 ha with rfl | ha
    · exact ⟨_, by simp, h1⟩
    · obtain ⟨b, hb, h⟩ := ih a ha
      exact ⟨b, List.mem_cons_of_mem _ hb, h⟩

theorem ext_length {y : YHyphens} {l m : List (Str × Str)} (h : Ext y l m) : (spell l).length ≤ (spell m).length := by
  induction h with
  | nil => exact Nat.le_refl _
  | @same p _ _ _ ih =>
    obtain ⟨x, h⟩ := p
    rw [spell_cons, spell_cons]
    simp only [List.length_append]
    omega
  | @extra x x' h h' l m _ _ _ ih =>
    rw [spell_cons x, spell_cons x]
    simp only [List.length_append, List.length_nil]
    omega

theorem remade {s : Settings} {g : Bool} {w : Str} {t : BType} {ps : List Str} (ha : analyseBrivla .linked s w = .ok (t, ps))
    (ht : t = .lujvo ∨ t = .cmevla) (hlen : w.length < 10 ^ 93)
    (hm : ∃ l m, ps = flat m ∧ Made s g l ∧ Apt s g l ∧ Ext s.yHyphens l m) :
    ∃ vs w' sc ix sc0, getVeljvo .linked s w = .ok vs ∧ getLujvoWithAnalytics .linked s g (.list vs) = .ok (w', sc, ix) ∧
      scoreLujvo .linked s w = .ok sc0 ∧ sc ≤ sc0 + 100 * (ps.count s%"y" : Int) := by
  obtain ⟨l, m, rfl, hM, hA, hE⟩ := hm
  have hr := ext_rafsi hE hM.canon hM.rafsi
  obtain ⟨sc0, hsc⟩ := (C44_returns s w).2 ⟨t, _, ha, by rcases ht with rfl | rfl <;> simp⟩
  obtain ⟨vs, hv, -⟩ := bind_ok hsc
  obtain ⟨t', ps', ha', -, hs0⟩ := C44_score_lujvo hsc
  rw [ha] at ha'
  cases ha'
  have hsel : selrafsiFrom .linked s (flat m) 0 (flat m) = .ok vs := by
    have := hv
    unfold getVeljvo at this
    rw [ha] at this
    simp only [ok_bind] at this
    rw [if_neg (by rcases ht with rfl | rfl <;> simp)] at this
    exact this
  have hfst := hE.fst
  have hlong : ∀ p ∈ m.dropLast, kindOf p.1 ≠ .long := by
    intro p hp
    have : p.1 ∈ (m.map Prod.fst).dropLast := by rw [← List.map_dropLast]; exact List.mem_map.2 ⟨p, hp, rfl⟩
    rw [← hfst, ← List.map_dropLast] at this
    obtain ⟨q, hq, e⟩ := List.mem_map.1 this
    exact e ▸ hM.long q hq
  have hend : ∀ p, m.getLast? = some p → p.2 = [] := by
    intro p hp
    obtain ⟨u, x, e⟩ := ext_end hE (canon_end hM.canon)
    rw [e] at hp
    simp at hp
    rw [← hp]
  have hN := selrafsi_names (i := 0) hr hlong hend (by omega) hsel
  obtain ⟨zs, hy, hf, hL, he⟩ := canon_legal hM.canon hM.rafsi hM.long hA.enough hA.ends
  have hxs := made_xs hM
  rw [hfst] at hf hxs
  have hvl := all2_length hN
  have hrep : Represents .linked s vs.length 0 vs zs := names_represents hN (by omega) hf
  have hlj : LujvoOf .linked s g vs (spell l) (cost zs hy) := ⟨zs, hy, hrep, hL, he.symm, rfl⟩
  have hmr : spell m = reading w := by rw [← flat_spell, C01_pieces_spell_word ha]
  have hcost := ext_cost hE
  have hlm : (spell l).length ≤ (spell m).length := ext_length hE
  have hrl := reading_length w
  have hP : ∀ v ∈ vs, ∃ x, Names s v x := fun v hv => by
    obtain ⟨x, -, h⟩ := all2_left hN v hv
    exact ⟨x, h⟩
  have hrd : vs.map reading = vs := by
    conv => rhs; rw [← List.map_id vs]
    refine List.map_congr_left fun v hv => ?_
    obtain ⟨x, h⟩ := hP v hv
    exact spelled_reading h.spelled
  have hlt : (spell l).length < 10 ^ 96 := by
    have : (10 : Nat) ^ 96 = 1000 * 10 ^ 93 := by decide
    rw [hmr] at hlm
    omega
  obtain ⟨⟨w', sc, ix⟩, hget⟩ := words_found (fun v hv => by
      obtain ⟨x, h⟩ := hP v hv
      exact ⟨h.spelled, h.short, h.word⟩) (fun v hv => by
      obtain ⟨x, h⟩ := hP v hv
      exact h.noMz) hlj (lujvoOf_short hlj hlt)
  refine ⟨vs, w', sc, ix, sc0, hv, ?_, hsc, ?_⟩
  · rw [analytics_of (t := .list vs) (ws := vs) rfl (fun v hv => by
      obtain ⟨x, h⟩ := hP v hv
      rw [spelled_reading h.spelled]
      exact h.spelled.ne), hrd]
    exact hget
  · have hmin := (getLujvoFromList_best.1 _ hget).2 _ _ hlj
    simp only at hmin
    have hc := cost_letters hxs hf hL
    rw [he] at hc
    rw [shapes_flat hr, ← hmr] at hs0
    rw [spell_vowels fun p hp => (hr p hp).2] at hs0
    have hcc : countChar (spell m) 'y' = (spell m).count 'y' := rfl
    rw [hcc] at hs0
    have hlc : letterCost (spell m) = 1000 * ((spell m).length : Int) + 100 * (((spell m).count 'y' : Nat) : Int) := rfl
    rcases hcost with hcost | hcost
    · rw [hcost] at hlc
      by_cases htie : TieShape w
      · rw [if_pos htie] at hs0
        obtain ⟨h7, hrw⟩ := tie_small htie
        have h3 := spell_short fun p hp => (hr p hp).1
        rw [hmr, hrw] at h3
        have hz2 : zs.take 2 = zs := List.take_of_length_le (by have := fits_length hf; simp at this; omega)
        have hcz : cost zs hy = letterCost (spell l) - 10 * ((((m.map Prod.fst).map shapeScore).sum : Nat) : Int) - vowelCount (m.map Prod.fst).flatten - 1 := by
          unfold cost
          rw [hz2, legal_vowels hxs hf hL, (fits_vowels hf hxs).2, he, ← hcost, hmr, hrw, if_pos htie]
          unfold letterCost
          omega
        rw [hcost] at hs0
        omega
      · rw [if_neg htie] at hs0
        rw [hcost] at hs0
        omega
    · have : sc0 ≥ letterCost (spell m) - 100 * (((flat m).count s%"y" : Nat) : Int) - 10 * ((((m.map Prod.fst).map shapeScore).sum : Nat) : Int)
          - vowelCount (m.map Prod.fst).flatten - 1 := by
        rw [hlc]
        split at hs0 <;> omega
      omega

end Jvotci
