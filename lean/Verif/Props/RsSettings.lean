import Verif.Lemmas.RsSettings

/-!
# C81: the settings strings of the Rust crate
-/

namespace Jvotci

open Spec

/-- **C81** The printed form of settings parses back to the same settings. -/
theorem C81_round_trip (s : RsSettings) : rsParse (rsDisplay s) = some s := by
  obtain ⟨a, b, c, d, e, f⟩ := s
  cases a <;> cases b <;> cases c <;> cases d <;> cases e <;> cases f <;> decide

example : rsDisplay { yHyphens := .forceY, consonants := .oneConsonant, glides := true } = s%"F1g" := by decide

/-- **C81** A string parses exactly when it has only flags and no two about the same thing. -/
theorem C81_parse (w : Str) : (∃ s, rsParse w = some s) ↔ GoodFlags w :=
  ⟨fun ⟨_, h⟩ => (rsParse_says h).1, rsParse_good⟩

example : GoodFlags s%"zSc2" := (C81_parse _).1 ⟨_, rfl⟩
example : ¬ GoodFlags s%"AF" := mt (C81_parse _).2 (by rintro ⟨s, h⟩; revert h; exact (by decide : rsParse s%"AF" = none) ▸ by simp)

/-- **C81** What parses says what the settings are: they are the one value `Says` allows. -/
theorem C81_says (w : Str) (s : RsSettings) : rsParse w = some s ↔ GoodFlags w ∧ Says w s := by
  constructor
  · exact rsParse_says
  · rintro ⟨hg, hs⟩
    obtain ⟨t, ht⟩ := rsParse_good hg
    rw [ht, says_unique hs (rsParse_says ht).2]

example : rsParse s%"zSc2" = some { generateCmevla := true, allowMz := true, consonants := .twoConsonants } := by decide

/-- **C81** The order of the flags does not matter to the parser. -/
theorem C81_order (w w' : Str) (h : w.Perm w') : rsParse w = rsParse w' := by
  have key : ∀ {w w' : Str} {s : RsSettings}, w.Perm w' → rsParse w = some s → rsParse w' = some s := by
    intro w w' s h hw
    obtain ⟨⟨h1, h2⟩, h3⟩ := (C81_says w s).1 hw
    refine (C81_says w' s).2 ⟨⟨fun c hc => h1 c (h.mem_iff.2 hc), h.pairwise h2 fun hab hba => hab hba.symm⟩, ?_⟩
    constructor <;> rw [← h.mem_iff]
    · exact h3.cmevla
    · exact h3.rafsi
    · exact h3.glides
    · exact h3.mz
    · exact h3.allowY
    · exact h3.forceY
    · exact h3.two
    · exact h3.one
  cases hw : rsParse w with
  | some s => exact (key h hw).symm
  | none =>
    cases hw' : rsParse w' with
    | none => rfl
    | some s => rw [key h.symm hw'] at hw; cases hw

example : (s%"c1A").Perm s%"A1c" := by decide

/-- **C81** `apply_flags` gives `None` exactly when the string has something that is no flag. -/
theorem C81_apply_flags (s : RsSettings) (w : Str) : (∃ s', rsApplyFlags s w = some s') ↔ ∀ c ∈ w, flagKind c ≠ .none := by
  rw [rsApplyFlags_loop]
  exact rsApplyLoop_some w s

example : rsApplyFlags {} s%"AFA" = some { yHyphens := .allowY } ∧ rsApplyFlags {} s%"cq" = none := by decide

/-- **C81** On fresh settings, applying a string that parses gives what parsing it gives. -/
theorem C81_apply_parse (w : Str) (s : RsSettings) (h : rsParse w = some s) : rsApplyFlags {} w = some s := by
  obtain ⟨hg, hs⟩ := rsParse_says h
  rw [rsApplyFlags_loop]
  obtain ⟨t, ht⟩ := (rsApplyLoop_some w {}).2 hg.1
  rw [ht, says_unique hs (says_apply (u := []) says_nil hg ht)]

/-- **C81** So the printed form of any settings, applied to fresh settings, gives those settings. -/
theorem C81_apply_display (s : RsSettings) : rsApplyFlags {} (rsDisplay s) = some s := C81_apply_parse _ _ (C81_round_trip s)

example : rsApplyFlags {} s%"zSc2" = some { generateCmevla := true, allowMz := true, consonants := .twoConsonants } := by decide

/-- **C81** Applying two strings one after the other is applying them joined. -/
theorem C81_apply_append (s : RsSettings) (u v : Str) :
    rsApplyFlags s (u ++ v) = (rsApplyFlags s u).bind fun s' => rsApplyFlags s' v := by
  simp only [rsApplyFlags_loop]
  exact rsApplyLoop_append u v s

example : rsApplyFlags {} (s%"cF" ++ s%"cA") = some { yHyphens := .allowY } := by decide

/-- **C81** Neighbouring flags about different things can be exchanged. -/
theorem C81_apply_swap (s : RsSettings) (u v : Str) (a b : Char) (h : flagKind a ≠ flagKind b) :
    rsApplyFlags s (u ++ a :: b :: v) = rsApplyFlags s (u ++ b :: a :: v) := by
  have key : ∀ s : RsSettings, rsApplyLoop s [a, b] = rsApplyLoop s [b, a] := by
    intro s
    by_cases ha : flagKind a = .none
    · have h1 : ∀ w : Str, a ∈ w → rsApplyLoop s w = none := by
        intro w hw
        cases hl : rsApplyLoop s w with
        | none => rfl
        | some t => exact absurd ha ((rsApplyLoop_some w s).1 ⟨t, hl⟩ a hw)
      rw [h1 _ (by simp), h1 _ (by simp)]
    by_cases hb : flagKind b = .none
    · have h1 : ∀ w : Str, b ∈ w → rsApplyLoop s w = none := by
        intro w hw
        cases hl : rsApplyLoop s w with
        | none => rfl
        | some t => exact absurd hb ((rsApplyLoop_some w s).1 ⟨t, hl⟩ b hw)
      rw [h1 _ (by simp), h1 _ (by simp)]
    have ma := (flagKind_cases a).2.2.2.2.2.2.1 ha
    have mb := (flagKind_cases b).2.2.2.2.2.2.1 hb
    simp only [List.mem_cons, List.not_mem_nil, or_false] at ma mb
    rcases ma with rfl | rfl | rfl | rfl | rfl | rfl | rfl | rfl | rfl | rfl <;>
      rcases mb with rfl | rfl | rfl | rfl | rfl | rfl | rfl | rfl | rfl | rfl <;>
        first | exact absurd rfl h | rfl
  have e : ∀ x y : Char, u ++ x :: y :: v = u ++ ([x, y] ++ v) := fun _ _ => rfl
  rw [e, e]
  simp only [rsApplyFlags_loop, rsApplyLoop_append, key]

example : flagKind 'F' ≠ flagKind '1' := by decide

/-- **C81** Each of `c`, `r`, `g`, `z` turns its setting over, as often as it occurs, and nothing else touches that setting. -/
theorem C81_apply_count (s t : RsSettings) (w : Str) (h : rsApplyFlags s w = some t) :
    t.generateCmevla = (s.generateCmevla ^^ decide (w.count 'c' % 2 = 1)) ∧
    t.expRafsi = (s.expRafsi ^^ decide (w.count 'r' % 2 = 1)) ∧
    t.glides = (s.glides ^^ decide (w.count 'g' % 2 = 1)) ∧
    t.allowMz = (s.allowMz ^^ decide (w.count 'z' % 2 = 1)) := by
  rw [rsApplyFlags_loop] at h
  have par : ∀ n : Nat, decide ((n + 1) % 2 = 1) = !decide (n % 2 = 1) := by
    intro n
    by_cases hn : n % 2 = 1
    · have : ¬ (n + 1) % 2 = 1 := by omega
      simp [hn, this]
    · have : (n + 1) % 2 = 1 := by omega
      simp [hn, this]
  induction w generalizing s with
  | nil => cases h; simp
  | cons f w ih =>
    unfold rsApplyLoop at h
    split at h
    · rename_i s1 h1
      obtain ⟨i1, i2, i3, i4⟩ := ih s1 h
      rw [i1, i2, i3, i4]
      have hf := (flagKind_cases f).2.2.2.2.2.2.1 ((rsApplyFlag_some s f).1 ⟨s1, h1⟩)
      simp only [List.mem_cons, List.not_mem_nil, or_false] at hf
      rcases hf with rfl | rfl | rfl | rfl | rfl | rfl | rfl | rfl | rfl | rfl <;> cases h1 <;>
        simp [par]
    · cases h

/-- **C81** The two settings of three values: the last flag about the setting decides, and `A`, `F`, `2`, `1` give the default where
the setting already had their value. -/
theorem C81_apply_last (s t : RsSettings) (w : Str) (f : Char) (h : rsApplyFlags s w = some t) :
    (f = 'S' → ∃ t', rsApplyFlags s (w ++ [f]) = some t' ∧ t'.yHyphens = .standard) ∧
    (f = 'A' → ∃ t', rsApplyFlags s (w ++ [f]) = some t' ∧ t'.yHyphens = if t.yHyphens = .allowY then .standard else .allowY) ∧
    (f = 'F' → ∃ t', rsApplyFlags s (w ++ [f]) = some t' ∧ t'.yHyphens = if t.yHyphens = .forceY then .standard else .forceY) ∧
    (f = 'C' → ∃ t', rsApplyFlags s (w ++ [f]) = some t' ∧ t'.consonants = .cluster) ∧
    (f = '2' → ∃ t', rsApplyFlags s (w ++ [f]) = some t' ∧
      t'.consonants = if t.consonants = .twoConsonants then .cluster else .twoConsonants) ∧
    (f = '1' → ∃ t', rsApplyFlags s (w ++ [f]) = some t' ∧
      t'.consonants = if t.consonants = .oneConsonant then .cluster else .oneConsonant) ∧
    (flagKind f ≠ .hyphens → ∀ t', rsApplyFlags s (w ++ [f]) = some t' → t'.yHyphens = t.yHyphens) ∧
    (flagKind f ≠ .consonants → ∀ t', rsApplyFlags s (w ++ [f]) = some t' → t'.consonants = t.consonants) := by
  have e : rsApplyFlags s (w ++ [f]) = rsApplyFlag t f := by
    rw [C81_apply_append, h]
    show rsApplyFlags t [f] = _
    rw [rsApplyFlags_loop]
    show (match rsApplyFlag t f with | some s' => rsApplyLoop s' [] | none => none) = _
    cases rsApplyFlag t f <;> rfl
  rw [e]
  refine ⟨?_, ?_, ?_, ?_, ?_, ?_, ?_, ?_⟩
  · rintro rfl; exact ⟨_, rfl, rfl⟩
  · rintro rfl; exact ⟨_, rfl, rfl⟩
  · rintro rfl; exact ⟨_, rfl, rfl⟩
  · rintro rfl; exact ⟨_, rfl, rfl⟩
  · rintro rfl; exact ⟨_, rfl, rfl⟩
  · rintro rfl; exact ⟨_, rfl, rfl⟩
  · intro hk t' h1
    have hf := (flagKind_cases f).2.2.2.2.2.2.1 ((rsApplyFlag_some t f).1 ⟨t', h1⟩)
    simp only [List.mem_cons, List.not_mem_nil, or_false] at hf
    rcases hf with rfl | rfl | rfl | rfl | rfl | rfl | rfl | rfl | rfl | rfl <;>
      first | exact absurd rfl hk | (cases h1; rfl)
  · intro hk t' h1
    have hf := (flagKind_cases f).2.2.2.2.2.2.1 ((rsApplyFlag_some t f).1 ⟨t', h1⟩)
    simp only [List.mem_cons, List.not_mem_nil, or_false] at hf
    rcases hf with rfl | rfl | rfl | rfl | rfl | rfl | rfl | rfl | rfl | rfl <;>
      first | exact absurd rfl hk | (cases h1; rfl)

example : rsApplyFlags { expRafsi := true } s%"rcAcFr" = some { expRafsi := true, yHyphens := .forceY } := by decide

/-- **C81** Settings are printed with a flag for each setting that is not the default, and no other: S and C are never printed. The printed
forms of the list of all settings are the strings it was made from. -/
theorem C81_display : (∀ s, rsDisplay s = [] ↔ s = {}) ∧ (∀ s, 'S' ∉ rsDisplay s ∧ 'C' ∉ rsDisplay s) ∧
    (∀ s w, rsParse w = some s → (rsDisplay s).length ≤ w.length) ∧
    rsSettingsIterator.map (·.map rsDisplay) = some rsSettingsStrings := by
  refine ⟨?_, ?_, ?_, by decide +kernel⟩
  · rintro ⟨a, b, c, d, e, f⟩
    cases a <;> cases b <;> cases c <;> cases d <;> cases e <;> cases f <;> decide
  · rintro ⟨a, b, c, d, e, f⟩
    cases a <;> cases b <;> cases c <;> cases d <;> cases e <;> cases f <;> decide
  · intro s w h
    obtain ⟨-, hs⟩ := rsParse_says h
    refine List.Nodup.length_le_of_subset ?_ ?_
    · obtain ⟨a, b, c, d, e, f⟩ := s
      cases a <;> cases b <;> cases c <;> cases d <;> cases e <;> cases f <;> decide
    · intro x hx
      obtain ⟨a, b, c, d, e, f⟩ := s
      obtain ⟨h1, h2, h3, h4, h5, h6, h7, h8⟩ := hs
      simp only [rsDisplay, List.mem_append] at hx
      rcases hx with ((((hx | hx) | hx) | hx) | hx) | hx
      · cases a <;> simp_all
      · cases b <;> simp_all
      · cases c <;> simp_all
      · cases d <;> simp_all
      · cases e <;> simp_all
      · cases f <;> simp_all

/-- **C81** The list of all settings is made without a panic and has every settings value exactly once. -/
theorem C81_all : ∃ l, rsSettingsIterator = some l ∧ l.length = 144 ∧ l.Nodup ∧ ∀ s : RsSettings, s ∈ l := by
  have h1 : rsSettingsIterator.isSome = true := by decide +kernel
  obtain ⟨l, hl⟩ := Option.isSome_iff_exists.1 h1
  have h2 : rsSettingsIterator.map List.length = some 144 := by decide +kernel
  have h3 : rsSettingsIterator.map (fun l => decide l.Nodup) = some true := by decide +kernel
  rw [hl] at h2 h3
  refine ⟨l, hl, by simpa using h2, by simpa using h3, ?_⟩
  have h4 : rsSettingsIterator = some ([false, true].flatMap fun a => [.standard, .allowY, .forceY].flatMap fun b =>
      [.cluster, .twoConsonants, .oneConsonant].flatMap fun c => [false, true].flatMap fun d => [false, true].flatMap fun e =>
        [false, true].map fun f => RsSettings.mk a b c d e f) := by decide +kernel
  rw [hl] at h4
  have hb : ∀ x : Bool, x ∈ [false, true] := by decide
  have hy : ∀ x : YHyphens, x ∈ [YHyphens.standard, .allowY, .forceY] := by intro x; cases x <;> decide
  have hc : ∀ x : Consonants, x ∈ [Consonants.cluster, .twoConsonants, .oneConsonant] := by intro x; cases x <;> decide
  intro s
  cases h4
  simp only [List.mem_flatMap, List.mem_map]
  exact ⟨_, hb _, _, hy _, _, hc _, _, hb _, _, hb _, _, hb _, rfl⟩

end Jvotci
