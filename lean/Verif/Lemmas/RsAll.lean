import Verif.RsY
import Verif.Lemmas.RsApi
import Verif.Lemmas.RsList

/-!
# Words without y never reach the part of the Rust crate for words with y
-/

namespace Jvotci

open Spec

theorem rsCmavoFall_congr {a a' : Str → Bool} {v : Str} (h : ∀ j, a (v.drop j) = a' (v.drop j)) (pos : Nat) :
    rsCmavoFall a v pos = rsCmavoFall a' v pos := by
  unfold rsCmavoFall
  simp only [h]

theorem rsZihScan_congr {a a' : Str → Bool} {mz : Bool} {v : Str} (h : ∀ j, a (v.drop j) = a' (v.drop j)) :
    ∀ (n : Nat) (rest : Str) (st : ZState), rsZihScan a mz v n rest st = rsZihScan a' mz v n rest st
  | 0, _, _ => rfl
  | n + 1, rest, st => by
    unfold rsZihScan
    have hc : ∀ c st, rsZihConsonants a mz v c st = rsZihConsonants a' mz v c st := by
      intro c st
      unfold rsZihConsonants
      rw [rsCmavoFall_congr h]
    simp only [hc, rsZihScan_congr h n]

theorem rsFallsBefore_congr {a a' : Str → Bool} {v : Str} (h : ∀ j, a (v.drop j) = a' (v.drop j)) (pos : Nat) :
    rsFallsBefore a v pos = rsFallsBefore a' v pos := by
  unfold rsFallsBefore
  simp only [h]

theorem rsCheck_congr {a a' b b' : Str → Bool} {sl : Str → Except RsErr Bool} {e mz r : Bool} {v : Str}
    (h : ∀ j, a (v.drop j) = a' (v.drop j)) (h' : ∀ j, b (v.drop j) = b' (v.drop j)) :
    rsCheck a b sl e mz r v = rsCheck a' b' sl e mz r v := by
  unfold rsCheck
  simp only [rsZihScan_congr h, rsFallsBefore_congr h', h']

theorem rsAll_noY {A : RsRest} {n : Nat} (Y : Settings → Bool → Str → Except RsErr (RsKind × List Str)) :
    ∀ (k : Nat) (s : Settings) (w : Str), (∀ c ∈ rsNormalise w, Vowel c ∨ Consonant c ∨ c = '\'') →
    rsAnalyseAll A n k s w = rsAnalyseFull A n Y k s w
  | 0, _, _, _ => rfl
  | k + 1, s, w, hlet => by
    unfold rsAnalyseAll rsAnalyseFull rsAnalyseBrivla
    simp only
    have hsub : ∀ s j, rsAnalyseAll A n k s ((rsNormalise w).drop j) = rsAnalyseFull A n Y k s ((rsNormalise w).drop j) := by
      intro s j
      have hl : ∀ c ∈ (rsNormalise w).drop j, Vowel c ∨ Consonant c ∨ c = '\'' := fun c hc => hlet c (List.mem_of_mem_drop hc)
      refine rsAll_noY Y k s _ ?_
      rw [rsNormalise_letters hl]
      exact hl
    have hy : 'y' ∉ rsNormalise w := by
      intro hc
      rcases hlet _ hc with h | h | h <;> revert h <;> decide
    have hafter : ∀ c, rsAfter A n (rsAnalyseAll A n k) (rsY A n (rsAnalyseAll A n k)) s c (rsNormalise w) =
        rsAfter A n (rsAnalyseFull A n Y k) Y s c (rsNormalise w) := by
      intro c
      have hany : (rsNormalise w).any (· == 'y') = false := by
        rw [Bool.eq_false_iff]
        intro h
        simp at h
        exact hy h
      unfold rsAfter
      rw [hany]
      simp only [Bool.not_false, if_true]
      split
      · rfl
      · split
        · rfl
        · congr 1
          exact rsCheck_congr (fun j => by simp only [hsub]) (fun j => by simp only [hsub])
    simp only [hafter]

end Jvotci
