import Verif.Lemmas.Count
import Verif.Lemmas.Fix

/-!
# C72: how much work the search of `get_lujvo` does
-/

namespace Jvotci

open Spec

/-- The counter changes nothing: what `get_lujvo` does with the components `l` is to search and to take the best of
what the search with the counter finds. -/
theorem C72_same_search (R : Rec) (s : Settings) (g : Bool) (l : List Str) :
    getLujvoFromList R s g l = ((searchC R s g l 0).1 >>= fun best =>
      match pickBest g best with
      | none => .error .noLujvo
      | some r =>
        if !g then do
          if ← slinkuhiInJvozba R s.yHyphens s.allowMz r.1 then .error .noLujvo else .ok r
        else .ok r) := by
  have h : (searchC R s g l 0).1 = (getRafsiListList R s l >>= fun ll => searchStages (combineOpts s g) ll) := by
    cases hl : getRafsiListList R s l with
    | error e =>
      have := costs_bind (costs_uncounted (getRafsiListList R s l)) (f := searchStagesC (combineOpts s g)) (g := searchStages (combineOpts s g)) (k' := 0)
        (fun a ha => by rw [hl] at ha; cases ha) 0
      obtain ⟨m, h, -⟩ := this
      unfold searchC
      rw [h, hl]
    | ok ll =>
      have := costs_bind (costs_uncounted (getRafsiListList R s l)) (f := searchStagesC (combineOpts s g)) (g := searchStages (combineOpts s g))
        (fun a ha => costs_search (M := 8) (components_le ha).2 |> fun h => costs_mono h (show _ ≤ 576 * l.length by rw [(components_le ha).1]; omega)) 0
      obtain ⟨m, h, -⟩ := this
      unfold searchC
      rw [h, hl]
  rw [h]
  unfold getLujvoFromList
  cases getRafsiListList R s l with
  | error e => rfl
  | ok ll => rfl

/-- **C72.** With `n` components, whatever they are, `get_lujvo` calls `combine` at most `576 n` times in its search,
although it looks for the best of all ways to choose a rafsi for each. -/
theorem C72_linear (R : Rec) (s : Settings) (g : Bool) (l : List Str) : (searchC R s g l 0).2 ≤ 576 * l.length := by
  have := costs_bind (costs_uncounted (getRafsiListList R s l)) (f := searchStagesC (combineOpts s g)) (g := searchStages (combineOpts s g))
    (fun a ha => costs_mono (costs_search (M := 8) (components_le ha).2) (show _ ≤ 576 * l.length by rw [(components_le ha).1]; omega)) 0
  obtain ⟨m, h, hm⟩ := this
  unfold searchC
  rw [h]
  omega

/-- **C72.** The same for `get_lujvo` as it is called. -/
theorem C72_get_lujvo (b : Build) (s : Settings) (g : Bool) (t : Tanru) {l : List Str} (hl : processTanru t = .ok l) :
    getLujvoWithAnalytics b s g t = ((searchC (program b) s g l 0).1 >>= fun best =>
      match pickBest g best with
      | none => .error .noLujvo
      | some r =>
        if !g then do
          if ← slinkuhiInJvozba (program b) s.yHyphens s.allowMz r.1 then .error .noLujvo else .ok r
        else .ok r) ∧ (searchC (program b) s g l 0).2 ≤ 576 * l.length := by
  refine ⟨?_, C72_linear _ s g l⟩
  rw [getLujvoWithAnalytics_program, hl, ok_bind]
  exact C72_same_search _ s g l

/-- Two, three and five components: 24, 30 and 46 calls. -/
example : (searchC (recN .linked 9) {} false [s%"bangu", s%"klama"] 0).2 = 24 ∧
    (searchC (recN .linked 9) {} false [s%"bangu", s%"klama", s%"gasnu"] 0).2 = 30 ∧
    (searchC (recN .linked 9) {} false [s%"bangu", s%"klama", s%"gasnu", s%"gasnu", s%"gasnu"] 0).2 = 46 := by decide +kernel

end Jvotci
