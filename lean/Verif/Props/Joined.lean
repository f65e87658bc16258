import Verif.Lemmas.Joined
import Verif.Props.Compounds
import Verif.Lemmas.CmavoWord

/-!
# C83: rafsi and zi'evla joined by y
-/

namespace Jvotci

open Spec

/-- **C83.** Rafsi and zi'evla joined by y, at least one of them a zi'evla: y after a consonant or the stem of a zi'evla, 'y after a
vowel or a whole zi'evla; another apostrophe if a vowel follows that is no on-glide. `analyse_brivla` accepts the word, as
`EXTENDED_LUJVO`, and takes it apart where it was joined. It must not begin with CCV, nor (under `STANDARD`) with CVV or CV'V, and not be
a slinku'i: with "to" before it, a lujvo. -/
theorem C83_joined {s : Settings} {x h z : Str} {l : List (Str × Str)}
    (hl : ∀ p ∈ (x, h) :: l, RafsiBefore s p.1 p.2 ∨ ZihevlaBefore s p.1 p.2) (hz : RafsiEnd s z ∨ ZihevlaWord s z)
    (hsome : (∃ p ∈ (x, h) :: l, ZihevlaBefore s p.1 p.2) ∨ ZihevlaWord s z)
    (hccv : pattern x ≠ s%"CCV") (hvv : VowelRafsi x → s.yHyphens ≠ .standard)
    (hsl : ConsonantInitial (joinY ((x, h) :: l) z).flatten →
      ∀ qs, LujvoPieces { yHyphens := s.yHyphens, allowMz := s.allowMz } qs → qs.flatten ≠ s%"to" ++ (joinY ((x, h) :: l) z).flatten)
    (hlen : (joinY ((x, h) :: l) z).flatten.length < 10 ^ 89) :
    analyseBrivla .linked s (joinY ((x, h) :: l) z).flatten = .ok (.extendedLujvo, joinY ((x, h) :: l) z) := by
  have hb : (10 : Nat) ^ 90 = 10 * 10 ^ 89 := by rw [Nat.pow_succ, Nat.mul_comm]
  have hb4 : (10 : Nat) ^ 89 ≤ 10 ^ 94 := Nat.pow_le_pow_right (by decide) (by decide)
  have hb1 : 1 ≤ (10 : Nat) ^ 89 := Nat.one_le_pow _ _ (by decide)
  have hxl : ∀ {y g : Str}, (y, g) ∈ (x, h) :: l → y.length + 1 < 10 ^ 90 := by
    intro y g hm
    have := flatten_mem_length (joinY_mem (z := z) hm)
    omega
  have hzl : z.length < 10 ^ 90 := by
    have := flatten_mem_length (joinY_last (z := z) ((x, h) :: l))
    omega
  have hunit : ∀ p ∈ (x, h) :: l, SepUnit s p.1 p.2 := by
    rintro ⟨y, g⟩ hm
    rcases hl _ hm with h | h
    · exact rafsiBefore_unit h
    · exact (zihevlaBefore_unit h (hxl hm)).1
  have hend : EndUnit s z := by
    rcases hz with ⟨⟨h1, h2⟩, h3⟩ | h
    · exact .inl ⟨h1, h2, h3⟩
    · exact .inr (zihevlaWord_whole h hzl)
  -- a zi'evla is no rafsi
  have hbad : ∃ y ∈ joinY ((x, h) :: l) z, (ZWhole s y ∨ ZCut s y) := by
    rcases hsome with ⟨⟨y, g⟩, hm, hzz⟩ | hzz
    · refine ⟨y, joinY_mem hm, ?_⟩
      rcases (zihevlaBefore_unit hzz (hxl hm)).2 with h | h
      · exact .inl h.1
      · exact .inr h.1
    · exact ⟨z, joinY_last _, .inl (zihevlaWord_whole hzz hzl)⟩
  have hno : (∃ p ∈ (x, h) :: l, ¬ VowelRafsi p.1) ∨ ¬ VowelRafsi z := by
    rcases hsome with ⟨⟨y, g⟩, hm, hzz⟩ | hzz
    · refine .inl ⟨_, hm, ?_⟩
      rcases (zihevlaBefore_unit hzz (hxl hm)).2 with h | h
      · exact zwhole_not_vv h.1
      · exact zcut_not_vv h.1
    · exact .inr (zwhole_not_vv (zihevlaWord_whole hzz hzl))
  obtain ⟨t, ht, ha⟩ := joined_word (hunit (x, h) (by simp)) (fun p hp => hunit p (List.mem_cons_of_mem _ hp)) hend hccv hvv hno
    hsl (Nat.lt_of_lt_of_le hlen hb4)
  rcases ht with rfl | rfl
  · exfalso
    obtain ⟨y, hm, hy⟩ := hbad
    have h3 : 3 ≤ y.length ∧ shapeScore y = 0 ∧ 'y' ∉ y := by
      have hny : ∀ {w : Str}, ZWhole s w → 'y' ∉ w := fun h hm => by
        rcases h.form.sounds.letters _ hm with h | h | h <;> revert h <;> decide
      rcases hy with h | h
      · have := form_long h.form
        exact ⟨by omega, zwhole_shape h, hny h⟩
      · have := form_long h.whole.form
        simp at this
        exact ⟨by omega, zcut_shape h, fun hm => hny h.whole (List.mem_append_left _ hm)⟩
    rcases C09_cll_rafsi ha y hm with h | h
    · simp only [Hyphen, List.mem_cons, List.not_mem_nil, or_false] at h
      rcases h with rfl | rfl | rfl | rfl | rfl | rfl <;> simp at h3
    · exact shape_rafsi h3.2.1 h
  · exact ha

/-- **C83.** It is no slinku'i if there is a zi'evla in it that is whole, or is not what the word begins with. -/
theorem C83_not_slinkuhi {s : Settings} {x h z : Str} {l : List (Str × Str)}
    (hl : ∀ p ∈ (x, h) :: l, RafsiBefore s p.1 p.2 ∨ ZihevlaBefore s p.1 p.2)
    (hsome : (∃ p ∈ l, ZihevlaBefore s p.1 p.2) ∨ ZihevlaWord s z ∨ ZihevlaWord s x ∧ h = s%"'y")
    (hc : ConsonantInitial (joinY ((x, h) :: l) z).flatten) (hlen : (joinY ((x, h) :: l) z).flatten.length < 10 ^ 89) :
    ∀ qs, LujvoPieces { yHyphens := s.yHyphens, allowMz := s.allowMz } qs → qs.flatten ≠ s%"to" ++ (joinY ((x, h) :: l) z).flatten := by
  have hb : (10 : Nat) ^ 90 = 10 * 10 ^ 89 := by rw [Nat.pow_succ, Nat.mul_comm]
  have hb1 : 1 ≤ (10 : Nat) ^ 89 := Nat.one_le_pow _ _ (by decide)
  have hyx : ∀ q ∈ (x, h) :: l, ∃ a, q.2 = a ++ s%"y" := fun q hq => before_y_hyphen (hl q hq)
  have hx := hyx (x, h) (by simp)
  rcases hsome with ⟨⟨y, g⟩, hm, hzz⟩ | hzz | ⟨-, rfl⟩
  · have hyl := flatten_mem_length (joinY_mem (z := z) (List.mem_cons_of_mem (x, h) hm))
    obtain ⟨l1, l2, rfl⟩ := List.append_of_mem hm
    obtain ⟨A, t, e⟩ := joinY_at (x0 := x) (h0 := h) (z := z) (p := (y, g)) (l2 := l2) hx l1 (fun q hq => hyx q (by simp [hq]))
    rw [List.cons_append] at e
    rcases (zihevlaBefore_unit (x := y) (h := g) hzz (by omega)).2 with ⟨-, rfl⟩ | ⟨hz, rfl⟩
    · exact notSlinkuhi_apostrophe (s := s) (A := A ++ 'y' :: ((if leadB y then s%"'" else []) ++ y)) (t := t) (by rw [e]; simp) hc
    · have hny : 'y' ∉ y := fun hm => by
        rcases zcut_letters hz _ hm with h | h | h <;> revert h <;> decide
      refine notSlinkuhi_between (s := s) (A := A) (x := (if leadB y then s%"'" else []) ++ y) (t := t) (by rw [e]; simp) ?_ ?_ ?_ hc
      · rw [List.mem_append]
        rintro (h | h)
        · split at h <;> simp at h
        · exact hny h
      · simp [zcut_ne hz]
      · intro hcc
        generalize leadB y = b at hcc
        cases b with
        | true => exact unreadable_apostrophe
        | false => exact hz.unreadable (by simpa using hcc)
  · have hzl := flatten_mem_length (joinY_last (z := z) ((x, h) :: l))
    obtain ⟨A, e⟩ := joinY_end (x0 := x) (h0 := h) (z := z) hx l (fun q hq => hyx q (by simp [hq]))
    refine notSlinkuhi_end (s := s) e ?_ hc
    cases leadB z with
    | true => exact unreadable_apostrophe
    | false => exact (zihevlaWord_whole hzz (by omega)).unreadable
  · exact notSlinkuhi_apostrophe (s := s) (A := x) (t := (if leadB (firstOf l z) then s%"'" else []) ++ (joinY l z).flatten)
      (by simp [joinY, hyphenTo_lead]) hc

/-- **C83.** So any such word with a zi'evla that is whole, or not at the beginning, is accepted and taken apart where it was joined. -/
theorem C83_zihevla {s : Settings} {x h z : Str} {l : List (Str × Str)}
    (hl : ∀ p ∈ (x, h) :: l, RafsiBefore s p.1 p.2 ∨ ZihevlaBefore s p.1 p.2) (hz : RafsiEnd s z ∨ ZihevlaWord s z)
    (hsome : (∃ p ∈ l, ZihevlaBefore s p.1 p.2) ∨ ZihevlaWord s z ∨ ZihevlaWord s x ∧ h = s%"'y")
    (hccv : pattern x ≠ s%"CCV") (hvv : VowelRafsi x → s.yHyphens ≠ .standard)
    (hlen : (joinY ((x, h) :: l) z).flatten.length < 10 ^ 89) :
    analyseBrivla .linked s (joinY ((x, h) :: l) z).flatten = .ok (.extendedLujvo, joinY ((x, h) :: l) z) := by
  refine C83_joined hl hz ?_ hccv hvv (fun hc => C83_not_slinkuhi hl hsome hc hlen) hlen
  rcases hsome with ⟨p, hp, h⟩ | h | ⟨h, rfl⟩
  · exact .inl ⟨p, List.mem_cons_of_mem _ hp, h⟩
  · exact .inr h
  · exact .inl ⟨_, List.mem_cons_self, .inl ⟨h, rfl⟩⟩

/-- **C83.** Two words: a zi'evla and a gismu, a gismu and a zi'evla. -/
theorem C83_two {s : Settings} {z m g : Str} {c : Char} (hz : ZihevlaWord s z) (hg : Gismu s.allowMz g) (hm : Gismu s.allowMz (m ++ [c]))
    (hlen : z.length < 10 ^ 88) :
    analyseBrivla .linked s (z ++ s%"'y" ++ g) = .ok (.extendedLujvo, [z, s%"'y", g]) ∧
    analyseBrivla .linked s (m ++ hyphenTo s%"y" z ++ z) = .ok (.extendedLujvo, [m, hyphenTo s%"y" z, z]) := by
  have hb : (10 : Nat) ^ 89 = 10 * 10 ^ 88 := by rw [Nat.pow_succ, Nat.mul_comm]
  have hb1 : 10 ≤ (10 : Nat) ^ 88 := Nat.pow_le_pow_right (n := 10) (i := 1) (by decide) (by decide)
  have hb2 : (10 : Nat) ^ 88 < 10 ^ 90 := Nat.pow_lt_pow_right (by decide) (by decide)
  have hW := zihevlaWord_whole hz (Nat.lt_trans hlen hb2)
  have hg5 : g.length = 5 := by cases hg <;> rfl
  have hgr : RafsiEnd s g := ⟨⟨.gismu hg, diph_long (by omega)⟩, gismu_vowel hg⟩
  have hlg : hyphenTo s%"'y" g = s%"'y" := by rw [hyphenTo_lead, leadB_rafsi (.gismu hg)]; rfl
  obtain ⟨hmr, hm4, -, -⟩ := gismu_cut hm
  obtain ⟨-, d, hd, hdc⟩ := cut_pattern hm
  have hbad : ∀ {q : Str}, q.length ≠ 3 → pattern q ≠ s%"CCV" := by
    intro q hq e
    have := congrArg List.length e
    simp [pattern] at this
    exact hq this
  have hl2 : (hyphenTo s%"y" z).length ≤ 2 := by
    unfold hyphenTo
    split <;> simp
  constructor
  · have := C83_zihevla (s := s) (x := z) (h := s%"'y") (z := g) (l := []) ?_ (.inl hgr) (.inr (.inr ⟨hz, rfl⟩)) ?_ ?_ ?_
    · simpa [joinY, firstOf, hlg] using this
    · intro p hp
      simp at hp
      subst hp
      exact .inr (.inl ⟨hz, rfl⟩)
    · exact hbad (by have := form_long hW.form; omega)
    · exact fun h => absurd h (zwhole_not_vv hW)
    · simp [joinY, firstOf, hlg]; omega
  · have := C83_zihevla (s := s) (x := m) (h := s%"y") (z := z) (l := []) ?_ (.inr hz) (.inr (.inl hz)) ?_ ?_ ?_
    · simpa [joinY, firstOf] using this
    · intro p hp
      simp at hp
      subst hp
      exact .inl ⟨⟨hmr, diph_long (x := m) (by omega)⟩, .inl ⟨⟨d, hd, hdc⟩, rfl⟩⟩
    · exact hbad (by omega)
    · intro h
      exact absurd h (stem_letters hm).2.2
    · simp [joinY, firstOf]; omega

-- The theorems apply to the words of differences.md: brii and plukauai as stems, plukauai as a whole; and others.
example : ZihevlaWord {} s%"briia" ∧ ZihevlaWord {} s%"plukauai" ∧ ZihevlaWord {} s%"plukauaia" ∧ ZihevlaWord {} s%"spageti" ∧ ZihevlaWord {} s%"iglu" := by
  refine ⟨⟨?_, ?_⟩, ⟨?_, ?_⟩, ⟨?_, ?_⟩, ⟨?_, ?_⟩, ⟨?_, ?_⟩⟩ <;> first | decide +kernel | (intro h; cases h)
example : RafsiEnd {} s%"mle" ∧ RafsiBefore {} s%"mlat" s%"y" ∧ RafsiBefore {} s%"spa" s%"'y" ∧ ZihevlaBefore {} s%"brii" s%"y" := by
  have hb : ∀ x : Str, (∃ c, x.getLast? = some c ∧ Consonant c) ↔ (x.getLast?.any fun c => Consonant c) = true := by
    intro x; cases x.getLast? <;> simp
  have nov : ∀ {x : Str}, (∀ c a b, x = [c, a, b] → ¬ (Vowel a ∧ Vowel b)) → Diph x := fun h c a b e ha hb => absurd ⟨ha, hb⟩ (h c a b e)
  refine ⟨⟨⟨.ccv (by decide) (by decide), nov ?_⟩, _, rfl, by decide⟩, ⟨⟨.ccvc (by decide) (by decide) (by decide), diph_long (by decide)⟩,
    .inl ⟨⟨_, rfl, by decide⟩, rfl⟩⟩, ⟨⟨.ccv (by decide) (by decide), nov ?_⟩, .inr ⟨⟨_, rfl, by decide⟩, rfl⟩⟩,
    .inr ⟨⟨by decide +kernel, fun h => by cases h⟩, by decide, fun h => absurd ((hb _).1 h) (by decide), rfl⟩⟩
  · rintro c a b ⟨⟩; decide
  · rintro c a b ⟨⟩; decide
example : joinY [(s%"brii", s%"y")] s%"mle" = [s%"brii", s%"y", s%"mle"] ∧ joinY [(s%"plukauai", s%"'y")] s%"mle" = [s%"plukauai", s%"'y", s%"mle"] ∧
    joinY [(s%"mlat", s%"y"), (s%"spageti", s%"'y"), (s%"brii", s%"y")] s%"iglu" = [s%"mlat", s%"y", s%"spageti", s%"'y", s%"brii", s%"y'", s%"iglu"] := by decide
example : analyseBrivla .linked {} s%"briiymle" = .ok (.extendedLujvo, [s%"brii", s%"y", s%"mle"]) ∧
    analyseBrivla .linked {} s%"plukauaiymle" = .ok (.extendedLujvo, [s%"plukauai", s%"y", s%"mle"]) ∧
    analyseBrivla .linked {} s%"plukauai'ymle" = .ok (.extendedLujvo, [s%"plukauai", s%"'y", s%"mle"]) := by decide +kernel
example : analyseBrivla .linked {} s%"mlatyspageti'ybriiy'iglu" =
    .ok (.extendedLujvo, [s%"mlat", s%"y", s%"spageti", s%"'y", s%"brii", s%"y'", s%"iglu"]) := by decide +kernel
/-- A stem at the beginning can be a slinku'i. -/
example : analyseBrivla .linked {} s%"slatlata" = .ok (.zihevla, [s%"slatlata"]) ∧ isBrivla .linked {} s%"slatlatygerku" = .ok false := by decide +kernel

end Jvotci
