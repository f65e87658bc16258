import Verif.Lemmas.Found
import Verif.Props.Search

/-!
# When there is a lujvo, `get_lujvo` finds it

`C25` says that nothing beats what `get_lujvo` returns and `C26` what it means that it finds nothing. Here: that it
does find something. The candidates are those of `SpecLujvo.lean`.
-/

namespace Jvotci

open Spec

theorem normalise_of {w : Str} (h : w ≠ []) : normalise w = .ok (reading w) := by
  cases hn : normalise w with
  | ok v =>
    have : [w].mapM normalise = Except.ok (ε := Err) [v] := by simp [hn, bind, Except.bind, pure, Except.pure]
    have := mapM_normalise_ok this
    simp at this
    rw [this]
  | error e =>
    cases w with
    | nil => exact absurd rfl h
    | cons c w => simp [normalise] at hn

theorem mapM_normalise_of : ∀ {ws : List Str}, (∀ w ∈ ws, w ≠ []) → ws.mapM normalise = .ok (ws.map reading)
  | [], _ => rfl
  | w :: ws, h => by
    rw [List.mapM_cons, normalise_of (h w (by simp)), ok_bind, mapM_normalise_of fun w hw => h w (List.mem_cons_of_mem _ hw)]
    rfl

theorem analytics_of {s : Settings} {g : Bool} {t : Tanru} {ws : List Str} (hw : Words t ws) (h : ∀ w ∈ ws, reading w ≠ []) :
    getLujvoWithAnalytics .linked s g t = getLujvoFromList (program .linked) s g (ws.map reading) := by
  rw [hw.list, getLujvoWithAnalytics_program]
  show (ws.mapM normalise >>= fun l => getLujvoFromList (program .linked) s g l) = _
  rw [mapM_normalise_of, ok_bind]
  intro w hw e
  exact h w hw (by rw [e]; rfl)

theorem Spec.Spelled.ne {v : Str} (h : Spelled v) : v ≠ [] := by
  obtain ⟨x, i, j, rfl, ⟨c, hc, -⟩, -⟩ := h
  intro e
  simp at e
  rw [e.2.1] at hc
  cases hc

theorem lujvoOf_short {b : Build} {s : Settings} {g : Bool} {vs : List Str} {w : Str} {sc : Int} (h : LujvoOf b s g vs w sc)
    (hw : w.length < 10 ^ 96) : sc < 10 ^ 100 := by
  obtain ⟨zs, hy, -, -, rfl, rfl⟩ := h
  have h2 := cost_le zs hy
  generalize (wordOf zs hy).length = n at *
  have : (10 : Int) ^ 100 = 10000 * 10 ^ 96 := by decide
  have : ((10 ^ 96 : Nat) : Int) = 10 ^ 96 := by simp
  omega

/-- **C53 (partial).** If a tanru of well-formed components has a lujvo at all, `get_lujvo` returns one, the best by
`C25`. There are two exceptions: the best lujvo is a slinku'i, and then `NoLujvoFoundError` is raised; or, not under
FORCE_Y, a component is a word without its last vowel (`x-`) which ends in two vowels and `r`, and then `IndexError`
is raised. -/
theorem C53_found_partial {s : Settings} {g : Bool} {t : Tanru} {ws : List Str} {w : Str} {sc : Int} (hw : Words t ws)
    (hs : ∀ v ∈ ws.map reading, Spelled v) (hl : LujvoOf .linked s g (ws.map reading) w sc) (hlen : w.length < 10 ^ 96) :
    (∃ w' sc' ix, getLujvoWithAnalytics .linked s g t = .ok (w', sc', ix)) ∨
    (g = false ∧ getLujvoWithAnalytics .linked s g t = .error .noLujvo ∧
      ∃ w' sc', LujvoOf .linked s g (ws.map reading) w' sc' ∧
        (∀ w'' sc'', LujvoOf .linked s g (ws.map reading) w'' sc'' → sc' ≤ sc'') ∧
        (program .linked).slinkuhi s.yHyphens s.allowMz w' = .ok true) ∨
    (s.yHyphens ≠ .forceY ∧ getLujvoWithAnalytics .linked s g t = .error .index ∧
      ∃ v ∈ ws.map reading, ∃ x j, v = x ++ List.replicate (j + 1) '-' ∧ LateR x) := by
  rw [analytics_of hw (fun w hw => (hs _ (List.mem_map_of_mem hw)).ne)]
  rcases search_found hs hl (lujvoOf_short hl hlen) with ⟨r, h⟩ | h | h
  · exact .inl ⟨_, _, _, h⟩
  · exact .inr (.inl h)
  · obtain ⟨h1, h2, v, hv, x, j, e, hr, -⟩ := h
    exact .inr (.inr ⟨h1, h2, v, hv, x, j, e, hr⟩)

theorem lujvo_jvatmik : ∃ sc, LujvoOf .linked {} false [s%"jvatmik-", s%"je'ebzi", s%"dinju"] s%"jvatmikyje'ebzi'ydi'u" sc := by
  refine ⟨_, [⟨s%"jvatmik", .short, s%"jvatmiky"⟩, ⟨s%"je'ebzi", .long, s%"je'ebzi'y"⟩, ⟨s%"di'u", .vv, s%"di'u"⟩], [], ?_,
    legal_y ⟨_, _, _, rfl, by decide⟩ (by decide) (by decide) ⟨'u', rfl, by decide⟩, rfl, rfl⟩
  refine .cons (.cut (j := 0) rfl (by decide) (.inr ⟨[s%"jvatmika"], by decide +kernel⟩) ?_) ⟨s%"y", rfl, .inl ⟨rfl, rfl⟩⟩ ?_
  · intro _ _ ps h
    have : jvokaha2 .standard false s%"jvatmik" = .error .invalidCluster := by decide +kernel
    rw [this] at h; cases h
  refine .cons (.word (by decide) (.inr ⟨[s%"je'ebzi"], by decide +kernel⟩)) ⟨s%"'y", rfl, .inl ⟨rfl, rfl⟩⟩ ?_
  exact .cons (.listed (rs := [s%"dij", s%"di'u"]) (by decide) (by decide +kernel) (by decide) (.inl ⟨by decide, rfl⟩)) ⟨[], rfl, .inl rfl⟩ .nil

theorem lujvo_spageir : ∃ sc, LujvoOf .linked {} false [s%"spageir-", s%"mlatu"] s%"spageirymlatu" sc := by
  refine ⟨_, [⟨s%"spageir", .short, s%"spageiry"⟩, ⟨s%"mlatu", .long, s%"mlatu"⟩], [], ?_,
    legal_y ⟨_, _, _, rfl, by decide⟩ (by decide) (by decide) ⟨'u', rfl, by decide⟩, rfl, rfl⟩
  refine .cons (.cut (j := 0) rfl (by decide) (.inr ⟨[s%"spageira"], by decide +kernel⟩) ?_) ⟨s%"y", rfl, .inl ⟨rfl, rfl⟩⟩ ?_
  · intro _ _ ps h
    have : jvokaha2 .standard false s%"spageir" = .error .index := by decide +kernel
    rw [this] at h; cases h
  exact .cons (.word (by decide) (.inl ⟨[s%"mlatu"], by decide +kernel⟩)) ⟨[], rfl, .inr ⟨rfl, rfl⟩⟩ .nil

/-- **C53, refuted.** The two exceptions occur. `jvatmik- je'ebzi dinju` has a lujvo, `jvatmikyje'ebzi'ydi'u`, which
`get_veljvo` reads back as that tanru, but `get_lujvo` raises `NoLujvoFoundError`; `spageir- mlatu` has the lujvo
`spageirymlatu`, but `get_lujvo` raises `IndexError`. -/
theorem C53_false :
    (∃ sc, LujvoOf .linked {} false [s%"jvatmik-", s%"je'ebzi", s%"dinju"] s%"jvatmikyje'ebzi'ydi'u" sc) ∧
    getLujvoWithAnalytics .linked {} false (.list [s%"jvatmik-", s%"je'ebzi", s%"dinju"]) = .error .noLujvo ∧
    getVeljvo .linked {} s%"jvatmikyje'ebzi'ydi'u" = .ok [s%"jvatmik-", s%"je'ebzi", s%"dinju"] ∧
    (∃ sc, LujvoOf .linked {} false [s%"spageir-", s%"mlatu"] s%"spageirymlatu" sc) ∧
    getVeljvo .linked {} s%"spageirymlatu" = .ok [s%"spageir-", s%"mlatu"] ∧
    getLujvoWithAnalytics .linked {} false (.list [s%"spageir-", s%"mlatu"]) = .error .index := by
  exact ⟨lujvo_jvatmik, by decide +kernel, by decide +kernel, lujvo_spageir, by decide +kernel, by decide +kernel⟩

/-- The two hypotheses of `C53_found_partial`, and each of its three cases. -/
example : Spelled s%"jvatmik-" ∧ Spelled s%"je'ebzi" ∧ Spelled s%"dinju" :=
  ⟨⟨s%"jvatmik", 0, 1, rfl, by decide, by decide, by decide, by decide⟩, ⟨s%"je'ebzi", 0, 0, rfl, by decide, by decide, by decide, by decide⟩,
    s%"dinju", 0, 0, rfl, by decide, by decide, by decide, by decide⟩
example : (program .linked).slinkuhi .standard false s%"jvatmikyjebdi'u" = .ok true := by decide +kernel
example : LateR s%"spageir" := ⟨s%"spag", 'e', 'i', rfl, by decide, by decide⟩
example : getLujvoWithAnalytics .linked { yHyphens := .forceY } false (.list [s%"spageir-", s%"mlatu"]) =
    .ok (s%"spageirymlatu", 13065, [(0, 7), (8, 13)]) := by decide +kernel

/-- **C53 (partial).** If the components are gismu or of the form of cmavo, there is no exception: `get_lujvo` finds a
lujvo whenever there is one. -/
theorem C53_gismu_and_cmavo_partial {s : Settings} {g : Bool} {t : Tanru} {ws : List Str} {w : Str} {sc : Int} (hw : Words t ws)
    (hs : ∀ v ∈ ws.map reading, Plain s.allowMz v) (hl : LujvoOf .linked s g (ws.map reading) w sc)
    (hlen : w.length < 10 ^ 96) :
    ∃ w' sc' ix, getLujvoWithAnalytics .linked s g t = .ok (w', sc', ix) := by
  have hsp := plain_spelled hs hl
  rw [analytics_of hw (fun w hw => (hsp _ (List.mem_map_of_mem hw)).ne)]
  obtain ⟨r, h⟩ := plain_found hs hl (lujvoOf_short hl hlen)
  exact ⟨_, _, _, h⟩

example : Plain false s%"cmavo" ∧ Plain false s%"na'e" := by
  refine ⟨.inl (.ccvcv (by decide) (by decide) (by decide) (by decide)), .inr ⟨by decide, ?_⟩⟩
  intro a b h
  obtain ⟨u, v, e⟩ := h
  match u, e with
  | [], e => cases e; decide
  | [_], e => cases e; decide
  | [_, _], e => cases e; decide
  | _ :: _ :: _ :: u, e => simp at e; cases u <;> simp at e

/-- **C54.** Every tanru of two or more gismu has a lujvo, and a cmevla, whatever the options, and `get_lujvo` finds
it. -/
theorem C54_gismu {s : Settings} {g : Bool} {t : Tanru} {ws : List Str} (hw : Words t ws) (h2 : 2 ≤ ws.length)
    (hg : ∀ w ∈ ws, Gismu s.allowMz (reading w)) (hlen : ws.length < 10 ^ 95) :
    ∃ w sc ix, getLujvoWithAnalytics .linked s g t = .ok (w, sc, ix) := by
  obtain ⟨w, sc, hl, hwl⟩ := gismu_lujvo (b := .linked) (s := s) (g := g) (vs := ws.map reading) (by simpa using h2) (by
    intro v hv
    obtain ⟨w, hw, rfl⟩ := List.mem_map.1 hv
    exact hg w hw)
  refine C53_gismu_and_cmavo_partial hw (fun v hv => .inl ?_) hl (by simp at hwl; omega)
  obtain ⟨w, hw, rfl⟩ := List.mem_map.1 hv
  exact hg w hw

example : Words (.list [s%"mlatu", s%"gerku"]) [s%"mlatu", s%"gerku"] ∧ Gismu false s%"mlatu" ∧ Gismu false s%"gerku" :=
  ⟨rfl, .ccvcv (by decide) (by decide) (by decide) (by decide), .cvccv (by decide) (by decide) (by decide) (by decide)⟩
example : getLujvoWithAnalytics .linked {} false (.str s%"mlatu gerku") = .ok (s%"latyge'u", 7987, [(0, 3), (4, 8)]) := by decide +kernel
example : getLujvoWithAnalytics .linked {} true (.str s%"mlatu gerku") = .ok (s%"latyger", 6998, [(0, 3), (4, 7)]) := by decide +kernel

end Jvotci
