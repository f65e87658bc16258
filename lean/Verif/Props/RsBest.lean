import Verif.Props.RsRound
import Verif.Props.Shortest

/-!
# The Rust crate finds the best lujvo (C93)
-/

namespace Jvotci

open Spec

/-- **C93 (best).** What `get_lujvo` of the Rust crate returns for a tanru as in C91 is a lujvo for the tanru with this score, and no lujvo for
the tanru, with whatever rafsi and hyphens, scores lower; up to six components none is shorter. -/
theorem C93_best (A : RsRest) (n k : Nat) (Y : Settings → Bool → Str → Except RsErr (RsKind × List Str)) (rs : RsSettings) (s : Settings)
    (hs : s = { yHyphens := rs.yHyphens, consonants := rs.consonants, expRafsi := rs.expRafsi, glides := rs.glides, allowMz := rs.allowMz })
    (t : Str) (ws : List Str) (hws : Spaced t ws) (ht : ∀ c ∈ t, c.toNat ∉ [0x1C, 0x1D, 0x1E, 0x1F]) (hd : ∀ w ∈ ws, ¬ StrayDot w)
    (hc : ∀ w ∈ ws, OwnComponent s (reading w)) (hlen : ∀ w ∈ ws, (reading w).length < 180000) (hk : ∀ w ∈ ws, (reading w).length < k)
    (h2 : 2 ≤ ws.length) (hmax : ws.length < 60000) (w : Str) (sc : Int) (ix : List (Nat × Nat))
    (h : rsGetLujvoWithAnalytics (rsOwn A (n + 2) Y k) (n + 2) rs t = .ok (w, sc, ix)) :
    LujvoOf .linked s rs.generateCmevla (ws.map reading) w sc ∧
      ∀ w' sc', LujvoOf .linked s rs.generateCmevla (ws.map reading) w' sc' → sc ≤ sc' ∧ (ws.length ≤ 6 → w.length ≤ w'.length) := by
  rcases C91_get_lujvo A n k Y rs s hs t ws hws ht hd hc hlen hk h2 hmax with ⟨r, e1, -, e3, -⟩ | ⟨-, -, e3, -⟩
  · rw [e3] at h
    cases h
    have := C25_lowest_score (t := .str t) (ws := ws) hws e1
    exact ⟨this.1, fun w' sc' hl => ⟨this.2 w' sc' hl, fun h6 => C70_shortest (t := .str t) (ws := ws) hws e1 h6 hl⟩⟩
  · rw [e3] at h; cases h

/-- **C93 (nothing).** `get_lujvo` of the Rust crate fails for a tanru as in C91 only with `NoLujvoFoundError`. If the words are gismu and cmavo (words
without consonant cluster) and it fails, the tanru has no lujvo, of fewer than 10^96 letters, at all. -/
theorem C93_nothing (A : RsRest) (n k : Nat) (Y : Settings → Bool → Str → Except RsErr (RsKind × List Str)) (rs : RsSettings) (s : Settings)
    (hs : s = { yHyphens := rs.yHyphens, consonants := rs.consonants, expRafsi := rs.expRafsi, glides := rs.glides, allowMz := rs.allowMz })
    (t : Str) (ws : List Str) (hws : Spaced t ws) (ht : ∀ c ∈ t, c.toNat ∉ [0x1C, 0x1D, 0x1E, 0x1F]) (hd : ∀ w ∈ ws, ¬ StrayDot w)
    (hc : ∀ w ∈ ws, OwnComponent s (reading w)) (hlen : ∀ w ∈ ws, (reading w).length < 180000) (hk : ∀ w ∈ ws, (reading w).length < k)
    (h2 : 2 ≤ ws.length) (hmax : ws.length < 60000) :
    ((∃ r, rsGetLujvoWithAnalytics (rsOwn A (n + 2) Y k) (n + 2) rs t = .ok r) ∨
      rsGetLujvoWithAnalytics (rsOwn A (n + 2) Y k) (n + 2) rs t = .error .noLujvo) ∧
    ((∀ w ∈ ws, Gismu s.allowMz (reading w) ∨ CmavoForm (reading w)) →
      rsGetLujvoWithAnalytics (rsOwn A (n + 2) Y k) (n + 2) rs t = .error .noLujvo →
      ∀ w sc, LujvoOf .linked s rs.generateCmevla (ws.map reading) w sc → 10 ^ 96 ≤ w.length) := by
  rcases C91_get_lujvo A n k Y rs s hs t ws hws ht hd hc hlen hk h2 hmax with ⟨r, e1, -, e3, -⟩ | ⟨e1, -, e3, -⟩
  · refine ⟨.inl ⟨r, e3⟩, fun _ h => ?_⟩
    rw [e3] at h; cases h
  · refine ⟨.inr e3, fun hf _ w sc hl => ?_⟩
    refine Nat.le_of_not_lt fun hw => ?_
    obtain ⟨w', sc', ix, h⟩ := C53_gismu_and_cmavo_partial (t := .str t) (ws := ws) hws (by
      intro v hv
      obtain ⟨u, hu, rfl⟩ := List.mem_map.1 hv
      exact hf u hu) hl hw
    rw [h] at e1; cases e1

/-- A rest that takes nothing for a brivla. -/
private def rest93 : RsRest := ⟨fun _ _ => .error .notBrivla, fun _ _ => .error .notZihevla⟩

private def noY93 : Settings → Bool → Str → Except RsErr (RsKind × List Str) := fun _ _ _ => .error .notBrivla

/-- "bangu klama" meets the hypotheses; the Rust crate makes "baukla" of it, and "banklama" is another lujvo. "ui mlatu" has none. -/
example : Spaced s%"bangu klama" [s%"bangu", s%"klama"] ∧ (∀ w ∈ [s%"bangu", s%"klama"], ¬ StrayDot w ∧ OwnComponent {} (reading w)) ∧
    rsGetLujvoWithAnalytics (rsOwn rest93 2 noY93 6) 2 {} s%"bangu klama" = .ok (s%"baukla", 5846, [(0, 3), (3, 6)]) ∧
    LujvoOf .linked {} false [s%"bangu", s%"klama"] s%"banklama" 7917 ∧
    rsGetLujvoWithAnalytics (rsOwn rest93 2 noY93 6) 2 {} s%"ui mlatu" = .error .noLujvo := by
  refine ⟨?_, ?_, by decide +kernel, lujvo_banklama, by decide +kernel⟩
  · exact .word (u := []) (w := s%"bangu") (rest := s%" klama") (by decide) (by decide) (by decide) (by decide)
      (.word (u := s%" ") (w := s%"klama") (rest := []) (by decide) (by decide) (by decide) (by decide) (.none (by decide)))
  · have h0 : ∀ w ∈ [s%"bangu", s%"klama"], rsNormalise w = reading w ∧ reading w = w := by decide
    have h2 : ∀ v ∈ [s%"bangu", s%"klama"], isGismu false v = true := by decide +kernel
    intro w hw
    obtain ⟨k1, k2⟩ := h0 w hw
    rw [k2]
    exact ⟨(C87_reading w).1 k1, .gismu (isGismu_iff.1 (h2 w hw))⟩

end Jvotci
