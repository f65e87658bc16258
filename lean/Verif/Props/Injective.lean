/-
C62: different tanru have different lujvo.
-/
import Verif.Props.RoundTripWords

namespace Jvotci
open Spec

/-- **C62** (partial). Two tanru of known gismu and cmavo and of zi'evla, whole or without their last vowel, for which `get_lujvo` returns
the same word are the same but for the spelling. Missing: zi'evla with mz under `allow_mz`, rafsi and words between dashes, gismu that are not
listed, and those that share their first four letters with another one, for which it is false. -/
theorem C62_different_tanru_partial {b : Build} {s : Settings} {t t' : Tanru} {ws ws' : List Str} {w : Str}
    (hws : Words t ws) (hv : ∀ v ∈ ws, Named s (reading v) ∧ NoMzWord s (reading v))
    (hws' : Words t' ws') (hv' : ∀ v ∈ ws', Named s (reading v) ∧ NoMzWord s (reading v))
    (h : getLujvo b s false t = .ok w) (h' : getLujvo b s false t' = .ok w) (hlen : w.length + 1 < 10 ^ 94) :
    ws.map reading = ws'.map reading := by
  have h1 := C43_words_partial hws (fun v h => (hv v h).1) h (fun v h => (hv v h).2) hlen
  have h2 := C43_words_partial hws' (fun v h => (hv' v h).1) h' (fun v h => (hv' v h).2) hlen
  rw [h1] at h2
  exact Except.ok.inj h2

/-- **C62** (partial). The same for listed gismu and cmavo alone, and cmevla (`generate_cmevla`). -/
theorem C62_known_partial {b : Build} {s : Settings} {g : Bool} {t t' : Tanru} {ws ws' : List Str} {w : Str}
    (hws : Words t ws) (hv : ∀ v ∈ ws, Known s.allowMz (reading v)) (hws' : Words t' ws') (hv' : ∀ v ∈ ws', Known s.allowMz (reading v))
    (h : getLujvo b s g t = .ok w) (h' : getLujvo b s g t' = .ok w) (hlen : w.length < 10 ^ 96) : ws.map reading = ws'.map reading := by
  have h1 := C43_round_trip_partial hws hv h hlen
  have h2 := C43_round_trip_partial hws' hv' h' hlen
  rw [h1] at h2
  exact Except.ok.inj h2

example : getLujvo .linked {} false (.str s%"spageti cidja angas- zdani") = .ok s%"spageti'ydja'y'angasyzda" ∧
    getLujvo .linked {} false (.list [s%"SPAGETI", s%"cidja", s%"angas-", s%"zdani"]) = .ok s%"spageti'ydja'y'angasyzda" := by decide +kernel

/-- **C62.** `datru mlatu` and `datro mlatu` have the same lujvo. -/
theorem C62_false : ∃ t t' w, t.map reading ≠ t'.map reading ∧ getLujvo .linked {} false (.list t) = .ok w ∧ getLujvo .linked {} false (.list t') = .ok w :=
  ⟨[s%"datru", s%"mlatu"], [s%"datro", s%"mlatu"], s%"datrymlatu", by decide +kernel⟩

end Jvotci
