import Verif.Lemmas.Looser
import Verif.Props.FoundWords

/-!
# C55: with relaxed options, `get_lujvo` does at least as well
-/

namespace Jvotci

open Spec

/-- **C55**. If `get_lujvo` returns a lujvo under the options `s`, that word is still a candidate, with the same score,
when the options are relaxed. So `get_lujvo` then returns a word with this score or a lower one. The one exception is
that of `C53`: the best of the candidates is a slinku'i, and `get_lujvo` raises `NoLujvoFoundError`. -/
theorem C55_not_worse {s s' : Settings} {g : Bool} {t : Tanru} {ws : List Str} {w : Str} {sc : Int} {ix : List (Nat × Nat)}
    (hs : Looser s s') (hw : Words t ws) (hv : ∀ v ∈ ws.map reading, Spelled v ∧ v.length < 10 ^ 90)
    (h : getLujvoWithAnalytics .linked s g t = .ok (w, sc, ix)) (hlen : w.length < 10 ^ 96) :
    LujvoOf .linked s' g (ws.map reading) w sc ∧
    ((∃ w' sc' ix', getLujvoWithAnalytics .linked s' g t = .ok (w', sc', ix') ∧ sc' ≤ sc) ∨
    (g = false ∧ getLujvoWithAnalytics .linked s' g t = .error .noLujvo ∧
      ∃ w' sc', LujvoOf .linked s' g (ws.map reading) w' sc' ∧ sc' ≤ sc ∧
        (program .linked).slinkuhi s'.yHyphens s'.allowMz w' = .ok true)) := by
  have hne : ∀ w ∈ ws, reading w ≠ [] := fun w hw => (hv _ (List.mem_map_of_mem hw)).1.ne
  rw [analytics_of hw hne] at h ⊢
  obtain ⟨h1, h2⟩ := looser_found hs hv h (lujvoOf_short (getLujvoFromList_best.1 _ h).1 hlen)
  refine ⟨h1, ?_⟩
  rcases h2 with ⟨r', h3, h4⟩ | ⟨h3, h4, w', sc', h5, h6, h7⟩
  · exact .inl ⟨_, _, _, h3, h4⟩
  · exact .inr ⟨h3, h4, w', sc', h5, h6 _ _ h1, h7⟩

/-- **C55**, for gismu and cmavo: no exception. -/
theorem C55_gismu_and_cmavo {s s' : Settings} {g : Bool} {t : Tanru} {ws : List Str} {w : Str} {sc : Int} {ix : List (Nat × Nat)}
    (hs : Looser s s') (hw : Words t ws) (hv : ∀ v ∈ ws.map reading, Plain s.allowMz v ∧ v.length < 10 ^ 90)
    (h : getLujvoWithAnalytics .linked s g t = .ok (w, sc, ix)) (hlen : w.length < 10 ^ 96) :
    ∃ w' sc' ix', getLujvoWithAnalytics .linked s' g t = .ok (w', sc', ix') ∧ sc' ≤ sc := by
  obtain ⟨l, hl1, hl2⟩ : ∃ l, ws.mapM normalise = .ok l ∧ getLujvoFromList (program .linked) s g l = .ok (w, sc, ix) := by
    rw [hw.list, getLujvoWithAnalytics_program] at h
    exact bind_ok h
  have e := mapM_normalise_ok hl1
  subst e
  have hl := (getLujvoFromList_best.1 _ hl2).1
  have hsp := plain_spelled (fun v hm => (hv v hm).1) hl
  obtain ⟨h1, h2⟩ := C55_not_worse hs hw (fun v hm => ⟨hsp v hm, (hv v hm).2⟩) h hlen
  obtain ⟨w', sc', ix', h3⟩ := C53_gismu_and_cmavo_partial hw (fun v hm => by rw [hs.mz]; exact (hv v hm).1) h1 hlen
  rcases h2 with h2 | ⟨-, h2, -⟩
  · exact h2
  · rw [h3] at h2; cases h2

/-- **C55**, for words and CLL rafsi: no exception. (With `allow_mz`, words that are not gismu must not have mz in them.) -/
theorem C55_words {s s' : Settings} {g : Bool} {t : Tanru} {ws : List Str} {w : Str} {sc : Int} {ix : List (Nat × Nat)}
    (hs : Looser s s') (hw : Words t ws) (hm : ∀ v ∈ ws.map reading, '-' ∉ v → NoMzWord s v)
    (hv : ∀ v ∈ ws.map reading, Spelled v ∧ v.length < 10 ^ 90 ∧ WordOrRafsi s.allowMz v)
    (h : getLujvoWithAnalytics .linked s g t = .ok (w, sc, ix)) (hlen : w.length < 10 ^ 96) :
    ∃ w' sc' ix', getLujvoWithAnalytics .linked s' g t = .ok (w', sc', ix') ∧ sc' ≤ sc := by
  obtain ⟨h1, h2⟩ := C55_not_worse hs hw (fun v hm => ⟨(hv v hm).1, (hv v hm).2.1⟩) h hlen
  obtain ⟨w', sc', ix', h3⟩ := C53_words_partial hw (fun v hm => by rw [hs.mz]; exact hv v hm)
    (fun v hv hd h => hm v hv hd (hs.mz ▸ h)) h1 hlen
  rcases h2 with h2 | ⟨-, h2, -⟩
  · exact h2
  · rw [h3] at h2; cases h2

/-- The hypotheses are met, and relaxing the options makes the word better. -/
example : Looser {} { yHyphens := .allowY, expRafsi := true } := ⟨rfl, .inr ⟨rfl, rfl⟩, by decide, .inl rfl, by decide⟩
example : WordOrRafsi false s%"darlu" ∧ WordOrRafsi false s%"sraune" ∧ WordOrRafsi false s%"kojna" :=
  ⟨.inl (by decide), .inl (by decide), .inl (by decide)⟩
example : Spelled s%"sraune" := ⟨s%"sraune", 0, 0, rfl, by decide, by decide, by decide, by decide⟩
example : getLujvoWithAnalytics .linked {} false (.str s%"darlu sraune kojna") =
    .ok (s%"darlysraune'yko'a", 17114, [(0, 4), (5, 11), (13, 17)]) := by decide +kernel
example : getLujvoWithAnalytics .linked { yHyphens := .allowY, expRafsi := true } false (.str s%"darlu sraune kojna") =
    .ok (s%"dau'ysraune'yko'a", 17053, [(0, 3), (5, 11), (13, 17)]) := by decide +kernel

end Jvotci
