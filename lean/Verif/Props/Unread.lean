import Verif.Lemmas.NoMz
import Verif.Props.ZihevlaWords

/-!
# C51: a zi'evla cannot be read as rafsi
-/

namespace Jvotci

open Spec

/-- **C51**. If `analyse_brivla(w)` calls a word a zi'evla, there is no way to cut it into rafsi and hyphens that obeys
even the local rules (`Reading`: which rafsi and hyphens may stand next to each other): a word is never ambiguous between
a zi'evla and a compound of rafsi that some rule about the whole word happens to forbid. (With `allow_mz`, for words without
mz; see `C51_mz_false`.) -/
theorem C51_unreadable {s : Settings} {w : Str} {ps qs : List Str} (hlen : w.length < 10 ^ 94)
    (hm : s.allowMz = false ∨ ¬ Adjacent (reading w) 'm' 'z')
    (h : analyseBrivla .linked s w = .ok (.zihevla, ps)) (hq : Reading s.yHyphens s.allowMz qs) : qs.flatten ≠ reading w := by
  obtain ⟨-, hf, hg, hl, ht, -⟩ := (C45_zihevla hlen).1 h
  have h1 := reading_short w
  have hlen' : (reading w).length < 10 ^ 95 := by
    have : (10 : Nat) ^ 95 = 10 * 10 ^ 94 := by rw [Nat.pow_succ, Nat.mul_comm]
    omega
  rcases hm with hm | hm
  · rw [hm] at hf hg hq
    exact form_unreadable hf hg (fun q h => hl q (default_lujvo hm h)) ht hlen' qs hq
  · intro e
    have hny : 'y' ∉ reading w := by
      intro h
      rcases hf.sounds.letters _ h with h | h | h <;> revert h <;> decide
    refine form_unreadable (y := s.yHyphens) hf (fun h => hg (gismu_mz h hm)) (fun q h e => ?_) ht hlen' qs (reading_mz hq (e ▸ hm)) e
    have hq := lujvoPieces_mz (b := s.allowMz) h (e ▸ hm) (.inr (noMyz_of_noY (e ▸ hny)))
    obtain ⟨h1, h2, h3, h4, h5, h6, h7, h8⟩ := hq
    exact hl q ⟨h1, h2, h3, h4, h5, h6, h7, fun _ => h8 rfl⟩ e

/-- In particular no zi'evla is a rafsi. -/
theorem C51_no_rafsi {s : Settings} {w : Str} {ps : List Str} (hlen : w.length < 10 ^ 94)
    (hm : s.allowMz = false ∨ ¬ Adjacent (reading w) 'm' 'z')
    (h : analyseBrivla .linked s w = .ok (.zihevla, ps)) (hd : ∀ c a b, reading w = [c, a, b] → ¬ (Vowel a ∧ Vowel b)) :
    ¬ Rafsi s.allowMz (reading w) := by
  intro hr
  refine C51_unreadable (qs := [reading w]) hlen hm h ⟨⟨_, rfl, hr⟩, ⟨_, rfl, hr⟩, ?_, ?_, ?_⟩ (by simp)
  · intro p hp c a b e ha hb
    simp at hp
    subst hp
    exact absurd ⟨ha, hb⟩ (hd c a b e)
  · intro u p q v e
    have := congrArg List.length e
    simp at this
    omega
  · intro a b c v _ e
    simp at e

/-- With `allow_mz` it can happen: the syllables cut off a word are tested without that option (tools.py:188, 193), so
`klamamzu` is not recognised in `baiklamamzu`. -/
theorem C51_mz_false : analyseBrivla .linked { allowMz := true } s%"baiklamamzu" = .ok (.zihevla, [s%"baiklamamzu"]) ∧
    Reading .standard true [s%"bai", s%"kla", s%"mamzu"] :=
  ⟨by decide +kernel, (C37_only_readings (w := s%"baiklamamzu") (by decide +kernel) (by decide)
    (fun p h => by cases h; decide) (fun u p q v e => by
      match u, e with
      | [], e => cases e; decide
      | [_], e => cases e; decide
      | [_, _], e => cases e
      | [_, _, _], e => cases e
      | _ :: _ :: _ :: _ :: _, e => cases e)).2⟩

example : analyseBrivla .linked {} s%"spageti" = .ok (.zihevla, [s%"spageti"]) := by decide +kernel
example : analyseBrivla .linked { allowMz := true } s%"spageti" = .ok (.zihevla, [s%"spageti"]) ∧ ¬ Adjacent (reading s%"spageti") 'm' 'z' := by
  refine ⟨by decide +kernel, ?_⟩
  rw [show reading s%"spageti" = s%"spageti" by decide]
  simp [adjacent_cons, adjacent_single]
-- a sequence of rafsi that is no lujvo (the hyphen is missing) is no zi'evla either
example : Reading .standard false [s%"bai", s%"kla", s%"ma'i"] :=
  (C37_only_readings (w := s%"baiklama'i") (by decide +kernel) (by decide) (fun p h => by cases h; decide) (fun u p q v e => by
      match u, e with
      | [], e => cases e; decide
      | [_], e => cases e; decide
      | [_, _], e => cases e
      | [_, _, _], e => cases e
      | _ :: _ :: _ :: _ :: _, e => cases e)).2
example : analyseBrivla .linked {} s%"baiklama'i" = .error .notBrivla := by decide +kernel

end Jvotci
