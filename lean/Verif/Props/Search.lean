import Verif.Lemmas.Best
import Verif.Props.Analytics

/-!
# C25, C26: the search of `get_lujvo`

`LujvoOf b s cmevla vs w sc` (in `Verif.SpecLujvo`) says that `w` is a lujvo for the components `vs`, with the
published score `sc`: it speaks of rafsi, hyphens and joints, not of the tables of the search.
-/

namespace Jvotci

open Spec

/-- **C25.** What `get_lujvo` returns is a lujvo for the tanru, and no lujvo for the tanru scores lower: none, with
whatever rafsi and hyphens. -/
theorem C25_lowest_score {b : Build} {s : Settings} {g : Bool} {t : Tanru} {ws : List Str} {w : Str} {sc : Int}
    {ix : List (Nat × Nat)} (hw : Words t ws) (h : getLujvoWithAnalytics b s g t = .ok (w, sc, ix)) :
    LujvoOf b s g (ws.map reading) w sc ∧ ∀ w' sc', LujvoOf b s g (ws.map reading) w' sc' → sc ≤ sc' := by
  rw [hw.list, getLujvoWithAnalytics_program] at h
  obtain ⟨vs, hvs, h⟩ := bind_ok h
  cases mapM_normalise_ok hvs
  exact getLujvoFromList_best.1 _ h

example : getLujvoWithAnalytics .linked {} false (.list [s%"bangu", s%"klama"]) = .ok (s%"baukla", 5846, [(0, 3), (3, 6)]) := by
  decide +kernel
/-- Another lujvo for the same tanru, which scores more. -/
theorem lujvo_banklama : LujvoOf .linked {} false [s%"bangu", s%"klama"] s%"banklama" 7917 := by
  refine ⟨[⟨s%"ban", .cvc, s%"ban"⟩, ⟨s%"klama", .long, s%"klama"⟩], [], ?_, ?_, rfl, by decide +kernel⟩
  · refine .cons (.listed (rs := [s%"ban", s%"bau"]) (by decide) (by decide +kernel) (by decide) (.inr (.inr (.inl ⟨by decide, rfl⟩)))) ⟨[], rfl, .inl rfl⟩
      (.cons (.word (by decide) (.inl ⟨[s%"klama"], by decide +kernel⟩)) ⟨[], rfl, .inr ⟨rfl, rfl⟩⟩ .nil)
  · refine ⟨⟨_, _, [], rfl, .inr ⟨by decide, by decide, by decide⟩⟩, ?_, ?_, ?_, .inr (.inr (by decide)), 'a', rfl, by decide⟩
    · intro y z h
      obtain ⟨rfl, rfl⟩ := beside_two.1 h
      refine ⟨?_, ?_, ?_⟩
      · intro a b ha hb _ _
        cases ha; cases hb; decide
      · intro a ha
        cases ha; decide
      · intro h; exact absurd h (by decide)
    · intro _ h
      rw [tosmabru_cons ⟨by decide, rfl⟩] at h
      rcases h.2 with h | h
      · rcases h with ⟨h, -⟩ | ⟨h, -⟩ <;> exact absurd h (by decide)
      · exact tosmabru_single h
    · rintro _ ⟨y, rest, e, -, h, -⟩
      cases e
      exact absurd h (by decide)

/-- **C26.** When `get_lujvo` finds nothing there is nothing to find: the tanru has no lujvo of fewer than `10 ^ 96`
letters (`10 ^ 100` is the score the search starts from), or its best lujvo is a slinku'i. -/
theorem C26_nothing_found {b : Build} {s : Settings} {g : Bool} {t : Tanru} {ws : List Str} (hw : Words t ws)
    (h : getLujvoWithAnalytics b s g t = .error .noLujvo) :
    (∀ w sc, LujvoOf b s g (ws.map reading) w sc → 10 ^ 96 ≤ w.length) ∨
    (g = false ∧ ∃ w sc, LujvoOf b s g (ws.map reading) w sc ∧
      (∀ w' sc', LujvoOf b s g (ws.map reading) w' sc' → sc ≤ sc') ∧
      (program b).slinkuhi s.yHyphens s.allowMz w = .ok true) := by
  rw [hw.list, getLujvoWithAnalytics_program] at h
  rcases bind_fails h with h | ⟨vs, hvs, h⟩
  · exact absurd h ((errs_processTanru _).not (by simp))
  cases mapM_normalise_ok hvs
  rcases getLujvoFromList_best.2 h with h | ⟨-, h⟩
  · left
    rintro w sc hw
    have h1 := h w sc hw
    obtain ⟨zs, hy, -, -, rfl, rfl⟩ := hw
    have h2 := cost_le zs hy
    generalize (wordOf zs hy).length = n at *
    have : (10 : Int) ^ 100 = 10000 * 10 ^ 96 := by decide
    have : ((10 ^ 96 : Nat) : Int) = 10 ^ 96 := by simp
    omega
  · exact .inr h

/-- Nothing that ends in -zba- is a cmevla; -sla- and -mabr- make no word that ends in a vowel. -/
example : getLujvoWithAnalytics .linked {} true (.list [s%"bangu", s%"-zba-"]) = .error .noLujvo := by decide +kernel
example : getLujvoWithAnalytics .linked {} false (.list [s%"-sla-", s%"-mabr-"]) = .error .noLujvo := by decide +kernel

end Jvotci
