import Verif.Lemmas.RsApi
import Verif.Props.RsLujvo

/-!
# Tanru and words given to the Rust crate (C87)
-/

namespace Jvotci

open Spec

/-- **C87 (reading).** The Rust crate reads a word as the Python version does exactly when it has no stray full stop. -/
theorem C87_reading (w : Str) : rsNormalise w = reading w ↔ ¬ StrayDot w := rsNormalise_iff w

example : ¬ StrayDot s%".KLAma" := (C87_reading _).1 (by decide)
example : StrayDot s%"klama." ∧ rsNormalise s%"klama." = s%"klama" ∧ reading s%"klama." = s%"klama." :=
  ⟨.last s%"klama" (by decide), by decide, by decide⟩

/-- **C87 (get_lujvo).** A tanru of two words or more (fewer than 60000), in which no word has a stray full stop, no character is U+001C to
U+001F (white space for Python only), and each word is a CLL rafsi between dashes, a gismu, or a word that neither version takes
for a brivla: both versions make the same lujvo or cmevla of it with the same score and rafsi, or both find none. -/
theorem C87_get_lujvo (A : RsRest) (n : Nat) (rs : RsSettings) (s : Settings)
    (hs : s = { yHyphens := rs.yHyphens, consonants := rs.consonants, expRafsi := rs.expRafsi, glides := rs.glides, allowMz := rs.allowMz })
    (t : Str) (ws : List Str) (hws : Spaced t ws) (ht : ∀ c ∈ t, c.toNat ∉ [0x1C, 0x1D, 0x1E, 0x1F]) (hd : ∀ w ∈ ws, ¬ StrayDot w)
    (hc : ∀ w ∈ ws, RsComponent A s (reading w)) (h2 : 2 ≤ ws.length) (hmax : ws.length < 60000) :
    (∃ r, getLujvoWithAnalytics .linked s rs.generateCmevla (.str t) = .ok r ∧ getLujvo .linked s rs.generateCmevla (.str t) = .ok r.1 ∧
        rsGetLujvoWithAnalytics A (n + 2) rs t = .ok r ∧ rsGetLujvo A (n + 2) rs t = .ok r.1) ∨
      (getLujvoWithAnalytics .linked s rs.generateCmevla (.str t) = .error .noLujvo ∧
        getLujvo .linked s rs.generateCmevla (.str t) = .error .noLujvo ∧
        rsGetLujvoWithAnalytics A (n + 2) rs t = .error .noLujvo ∧ rsGetLujvo A (n + 2) rs t = .error .noLujvo) := by
  subst hs
  have hne : ∀ w ∈ ws, w ≠ [] := spaced_ne hws
  have h1 : rsProcessTanru t = ws.map reading := by
    unfold rsProcessTanru rsSplitSpaces
    rw [rsSplitAux_eq t [] ht, show splitWsAux [] t = splitWs t from rfl, splitWs_spaced hws]
    exact List.map_congr_left fun w hw => (C87_reading w).2 (hd w hw)
  have h3 : processTanru (.str t) = .ok (ws.map reading) := by
    unfold processTanru
    dsimp only
    rw [splitWs_spaced hws]
    exact mapM_reading hne
  unfold getLujvo rsGetLujvo rsGetLujvoWithAnalytics
  rw [getLujvoWithAnalytics_program, h3, ok_bind, h1]
  rcases C86_same A n rs _ rfl (ws.map reading) (by
    intro v hv
    obtain ⟨w, hw, rfl⟩ := List.mem_map.1 hv
    exact hc w hw) (by simpa using h2) (by simpa using hmax) with ⟨r, e1, e2⟩ | ⟨e1, e2⟩
  · rw [e1, e2]
    exact .inl ⟨r, rfl, rfl, rfl, rfl⟩
  · rw [e1, e2]
    exact .inr ⟨rfl, rfl, rfl, rfl⟩

/-- A crate whose rest takes nothing for a brivla or a zi'evla. -/
private def bare : RsRest := ⟨fun _ _ => .error .notBrivla, fun _ _ => .error .notZihevla⟩

/-- The hypotheses are met, and the answers are these; of words with stray full stops they differ. -/
example : Spaced s%" .MLAtu\tci" [s%".MLAtu", s%"ci"] ∧ (∀ w ∈ [s%".MLAtu", s%"ci"], ¬ StrayDot w ∧ RsComponent bare {} (reading w)) ∧
    rsGetLujvo bare 2 {} s%" .MLAtu\tKLAma" = .ok s%"latkla" ∧ rsGetLujvo bare 2 {} s%"ci mlatu" = .ok s%"cibmlatu" ∧
    rsGetLujvo bare 2 {} s%"mlatu. klama" = .ok s%"latkla" ∧ getLujvo .linked {} false (.str s%"mlatu. klama") = .error .nonLojban := by
  refine ⟨?_, ?_, by decide +kernel, by decide +kernel, by decide +kernel, by decide +kernel⟩
  · exact .word (u := s%" ") (w := s%".MLAtu") (rest := s%"\tci") (by decide) (by decide) (by decide) (by decide)
      (.word (u := s%"\t") (w := s%"ci") (rest := []) (by decide) (by decide) (by decide) (by decide) (.none (by decide)))
  · intro w hw
    simp at hw
    rcases hw with rfl | rfl
    · exact ⟨(C87_reading _).1 (by decide), .gismu (isGismu_iff.1 (by decide +kernel))⟩
    · exact ⟨(C87_reading _).1 (by decide), .other (by decide) (by decide) (by decide +kernel) (by decide +kernel)⟩

/-- **C87 (cutting lujvo).** A plain word that ends in a vowel (of fewer than 180000 letters) is cut into the same pieces by both versions, or
by neither; and every plain word is a gismu or lujvo for both or for neither. -/
theorem C87_cut (A : RsRest) (n : Nat) (y : YHyphens) (co : Consonants) (gl mz : Bool) (w : Str) (hw : PlainWord w) (hlen : w.length < 180000) :
    ((∃ u c, w = u ++ [c] ∧ Vowel c) →
      (∃ ps, jvokaha (program .linked) y co gl mz w = .ok ps ∧ rsJvokaha A (rsSlinkuhi A (n + 2)) y co gl mz w = .ok ps) ∨
      ∃ e e', jvokaha (program .linked) y co gl mz w = .error e ∧ rsJvokaha A (rsSlinkuhi A (n + 2)) y co gl mz w = .error e' ∧
        (e = .decomposition ∨ e = .invalidCluster) ∧ (e' = .decomposition ∨ e' = .invalidCluster)) ∧
    ∃ b, isGismuOrLujvo (program .linked) y mz w = .ok b ∧ rsIsGismuOrLujvo A (n + 2) y mz w = .ok b := by
  refine ⟨?_, rs_isGismuOrLujvo hw hlen⟩
  rintro ⟨u, c, e, hv⟩
  have hc : w.getLast? = some c := by rw [e]; simp
  exact near_jvokaha_any (plain_cuttable hw hc hv) (plain_not_ccvhy hw) hc hv hlen

example : PlainWord s%"tosymabru" ∧ rsIsGismuOrLujvo bare 2 .standard false s%"tosymabru" = .ok true ∧
    rsIsGismuOrLujvo bare 2 .standard false s%"tosmabru" = .ok false := by
  refine ⟨⟨by unfold Letter; decide, ?_, ?_⟩, by decide +kernel, by decide +kernel⟩
  · rintro ⟨u, v, h⟩
    have : (s%"tosymabru").count 'y' = (u ++ s%"yy" ++ v).count 'y' := congrArg _ h
    simp only [List.count_append] at this
    rw [show (s%"tosymabru").count 'y' = 1 from by decide, show (s%"yy").count 'y' = 2 from by decide] at this
    omega
  · intro a b v u h
    cases h

/-- **C87 (tables and places).** Both versions find the same word for every rafsi, and give the same places for every list of pieces. -/
theorem C87_lookup (r : Str) (ps : List Str) : rsSearchSelrafsi r = searchSelrafsi r ∧ rsGetRafsiIndices ps = getRafsiIndices ps := by
  refine ⟨rsSearchSelrafsi_eq r, ?_⟩
  unfold rsGetRafsiIndices getRafsiIndices
  rw [rsIndicesLoop_eq]
  rfl

example : rsSearchSelrafsi s%"mlat" = some s%"mlatu" ∧ rsSearchSelrafsi s%"brod" = none ∧
    rsGetRafsiIndices [s%"soi", s%"r", s%"sai"] = [(0, 3), (4, 7)] := by
  refine ⟨?_, ?_, by decide⟩
  · rw [(C87_lookup _ []).1]; decide +kernel
  · rw [(C87_lookup _ []).1]; decide +kernel

end Jvotci
