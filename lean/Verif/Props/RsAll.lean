import Verif.Lemmas.RsAll
import Verif.Props.RsNoY
import Verif.Props.RsCmevla
import Verif.Props.RsAnalyse

/-!
# C98: the whole `analyze_brivla` of the Rust crate and the Python version

C88, C94 and C95 for the model in which no part of `analyze_brivla` is left open.
-/

namespace Jvotci

open Spec

/-- **C98.** On words without y the two versions accept the same words, with the same type and pieces (with `allow_mz` for words that end in a
consonant or do not have mz before a consonant). -/
theorem C98_same (A : RsRest) (n k : Nat) (s : Settings) (w : Str) (t : BType) (ps : List Str) (hd : ¬ StrayDot w)
    (hlet : ∀ c ∈ reading w, Vowel c ∨ Consonant c ∨ c = '\'') (hne : reading w ≠ []) (hlen : (reading w).length < 180000)
    (hk : (reading w).length < k)
    (hmz : s.allowMz = true → (∃ l, (reading w).getLast? = some l ∧ Consonant l) ∨ ∀ c, InitialPair 'z' c → ¬ Occurs ['m', 'z', c] (reading w)) :
    rsAnalyseAll A (n + 2) k s w = .ok (t, ps) ↔ analyseBrivla .linked s w = .ok (t, ps) := by
  rw [rsAll_noY (fun _ _ _ => .error .notBrivla) k s w (by rw [(rsNormalise_iff w).2 hd]; exact hlet)]
  exact C95_same A n k _ s w t ps hd hlet hne hlen hk hmz

/-- **C98.** A word without y that the crate does not accept it refuses with `NotBrivlaError`, exactly if the Python version does. -/
theorem C98_refused (A : RsRest) (n k : Nat) (s : Settings) (w : Str) (hd : ¬ StrayDot w)
    (hlet : ∀ c ∈ reading w, Vowel c ∨ Consonant c ∨ c = '\'') (hne : reading w ≠ []) (hlen : (reading w).length < 180000)
    (hk : (reading w).length < k) :
    ((∃ r, rsAnalyseAll A (n + 2) k s w = .ok r) ∨ rsAnalyseAll A (n + 2) k s w = .error .notBrivla) ∧
    ((s.allowMz = true → (∃ l, (reading w).getLast? = some l ∧ Consonant l) ∨ ∀ c, InitialPair 'z' c → ¬ Occurs ['m', 'z', c] (reading w)) →
      (rsAnalyseAll A (n + 2) k s w = .error .notBrivla ↔ analyseBrivla .linked s w = .error .notBrivla)) := by
  rw [rsAll_noY (fun _ _ _ => .error .notBrivla) k s w (by rw [(rsNormalise_iff w).2 hd]; exact hlet)]
  exact C95_refused A n k _ s w hd hlet hne hlen hk

/-- **C98.** A word, with or without y, that the Python version calls a lujvo is a lujvo for the crate, with the same pieces. -/
theorem C98_lujvo (A : RsRest) (n k : Nat) (s : Settings) (w : Str) (ps : List Str) (hd : ¬ StrayDot w) (hlen : (reading w).length < 180000)
    (h : analyseBrivla .linked s w = .ok (.lujvo, ps)) : rsAnalyseAll A (n + 2) (k + 1) s w = .ok (.lujvo, ps) :=
  (C88_lujvo _ n s w ps hd hlen).1 h

/-- **C98.** What the crate calls a lujvo is a lujvo for the Python version, if it is read as a plain word. -/
theorem C98_only_lujvo (A : RsRest) (n k : Nat) (s : Settings) (w : Str) (ps : List Str) (hd : ¬ StrayDot w) (hlen : (reading w).length < 180000)
    (hp : PlainWord (reading w)) (h : rsAnalyseAll A (n + 2) k s w = .ok (.lujvo, ps)) : analyseBrivla .linked s w = .ok (.lujvo, ps) := by
  cases k with
  | zero => unfold rsAnalyseAll at h; cases h
  | succ k => exact (C88_lujvo _ n s w ps hd hlen).2 hp h

/-- **C98.** A cmevla made of CLL rafsi, with or without y, has the same pieces in both versions. -/
theorem C98_cmevla (A : RsRest) (n k : Nat) (s : Settings) (w : Str) (ps : List Str) (hd : ¬ StrayDot w) (hw : reading w = ps.flatten)
    (h : CmevlaPieces s ps) (hlen : (reading w).length < 180000) :
    analyseBrivla .linked s w = .ok (.cmevla, ps) ∧ rsAnalyseAll A (n + 2) (k + 1) s w = .ok (.cmevla, ps) :=
  C94_cmevla _ n s w ps hd hw h hlen

private def rest98 : RsRest := ⟨fun _ _ => .error .notBrivla, fun _ _ => .error .notZihevla⟩

example : (∀ c ∈ reading s%"Spageti", Vowel c ∨ Consonant c ∨ c = '\'') ∧ reading s%"Spageti" ≠ [] ∧ ¬ StrayDot s%"Spageti" ∧
    rsAnalyseAll rest98 2 8 {} s%"Spageti" = .ok (.zihevla, [s%"spageti"]) ∧ analyseBrivla .linked {} s%"Spageti" = .ok (.zihevla, [s%"spageti"]) :=
  ⟨by decide, by decide, (rsNormalise_iff _).1 (by decide), by decide +kernel, by decide +kernel⟩
example : ¬ StrayDot s%"spageted" ∧ rsAnalyseAll rest98 2 9 {} s%"spageted" = .error .notBrivla ∧
    analyseBrivla .linked {} s%"spageted" = .error .notBrivla :=
  ⟨(rsNormalise_iff _).1 (by decide), by decide +kernel, by decide +kernel⟩
example : ¬ StrayDot s%"mlatyci'a" ∧ rsAnalyseAll rest98 2 1 {} s%"mlatyci'a" = .ok (.lujvo, [s%"mlat", s%"y", s%"ci'a"]) ∧
    analyseBrivla .linked {} s%"mlatyci'a" = .ok (.lujvo, [s%"mlat", s%"y", s%"ci'a"]) :=
  ⟨(rsNormalise_iff _).1 (by decide), by decide +kernel, by decide +kernel⟩

/-- Words with y that are no CLL lujvo: the versions agree on these. -/
example : ∀ w ∈ [s%"spageti'yjva", s%"alko'olynanba", s%"vlyjva", s%"lo'yspageti", s%"bastryjva"],
    rsAnalyseAll rest98 9 20 {} w = (match analyseBrivla .linked {} w with | .ok r => .ok r | .error _ => .error .notBrivla) := by decide +kernel

/-- **C99**, refuted: `analyze_brivla` of the Rust crate panics on "bily'aa" (the `unwrap` in tools.rs:455), where the Python version raises
DecompositionError. -/
theorem C99_panics (A : RsRest) (n k : Nat) : rsAnalyseAll A n (k + 1) {} s%"bily'aa" = .error .plain ∧
    analyseBrivla .linked {} s%"bily'aa" = .error .decomposition := ⟨by rfl, by decide +kernel⟩

/-- **C99**, for words without y: the crate does not panic, and raises no error but `NotBrivlaError`. Missing: words with y, of which some make it
panic (`C99_panics`). -/
theorem C99_no_panic_partial (A : RsRest) (n k : Nat) (s : Settings) (w : Str) (hd : ¬ StrayDot w)
    (hlet : ∀ c ∈ reading w, Vowel c ∨ Consonant c ∨ c = '\'') (hne : reading w ≠ []) (hlen : (reading w).length < 180000)
    (hk : (reading w).length < k) (e : RsErr) (h : rsAnalyseAll A (n + 2) k s w = .error e) : e = .notBrivla := by
  rcases (C98_refused A n k s w hd hlet hne hlen hk).1 with ⟨r, hr⟩ | hr
  · rw [hr] at h; cases h
  · rw [hr] at h; cases h; rfl

end Jvotci
