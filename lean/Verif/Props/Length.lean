/-
C63: a lujvo is never longer than its tanru.
-/
import Verif.Props.Found
import Verif.Lemmas.Length

namespace Jvotci
open Spec

theorem lujvo_slots {b : Build} {s : Settings} {g : Bool} {t : Tanru} {ws : List Str} {w : Str} (hw : Words t ws)
    (hg : ∀ v ∈ ws, Plain s.allowMz (reading v)) (h : getLujvo b s g t = .ok w) :
    ∃ zs hy, Represents b s (ws.map reading).length 0 (ws.map reading) zs ∧ Legal s g zs hy ∧ w = wordOf zs hy ∧
      ∀ w' sc, LujvoOf b s g (ws.map reading) w' sc → cost zs hy ≤ sc := by
  obtain ⟨r, hr, h⟩ := bind_ok h
  cases h
  rw [hw.list, getLujvoWithAnalytics_program] at hr
  obtain ⟨l, hl, hr⟩ := bind_ok hr
  cases (mapM_normalise_ok hl : l = ws.map reading)
  obtain ⟨⟨zs, hy, h1, h2, h3, h4⟩, hmin⟩ := getLujvoFromList_best.1 r hr
  exact ⟨zs, hy, h1, h2, h3, h4 ▸ hmin⟩

/-- **C63.** The lujvo, or cmevla, of a tanru of gismu is never longer than the gismu written without spaces. -/
theorem C63_gismu {b : Build} {s : Settings} {g : Bool} {t : Tanru} {ws : List Str} {w : Str} (hw : Words t ws) (hg : ∀ v ∈ ws, Gismu s.allowMz (reading v))
    (h : getLujvo b s g t = .ok w) : w.length ≤ (ws.map reading).flatten.length := by
  obtain ⟨zs, hy, h1, h2, rfl, h4⟩ := lujvo_slots hw (fun v hv => .inl (hg v hv)) h
  have hg' : ∀ v ∈ ws.map reading, Gismu s.allowMz v := by
    intro v hv
    obtain ⟨w, hw, rfl⟩ := List.mem_map.1 hv
    exact hg w hw
  have := gismu_best_length hg' h1 h2 h4
  have h5 : ∀ l : List Str, (∀ v ∈ l, Gismu s.allowMz v) → l.flatten.length = 5 * l.length := by
    intro l hl
    induction l with
    | nil => rfl
    | cons v l ih =>
      have h1 := ih fun v hv => hl v (List.mem_cons_of_mem _ hv)
      have h2 : v.length = 5 := by cases hl v (by simp) <;> rfl
      simp only [List.flatten_cons, List.length_append, List.length_cons]
      omega
  rw [h5 _ hg']
  exact this

/-- **C63.** The lujvo, or cmevla, of a tanru of gismu and cmavo has at most five letters for each of them, and one more only
under FORCE_Y. -/
theorem C63_five_letters {b : Build} {s : Settings} {g : Bool} {t : Tanru} {ws : List Str} {w : Str} (hw : Words t ws)
    (hg : ∀ v ∈ ws, Plain s.allowMz (reading v)) (h : getLujvo b s g t = .ok w) :
    w.length ≤ 5 * ws.length ∨ (s.yHyphens = .forceY ∧ w.length = 5 * ws.length + 1) := by
  obtain ⟨zs, hy, h1, h2, rfl, h4⟩ := lujvo_slots hw hg h
  rcases plain_length (fun v hv => by
    obtain ⟨w, hw, rfl⟩ := List.mem_map.1 hv
    exact hg w hw) h1 h2 h4 with h | ⟨h, hf, -⟩
  · left; simpa using h
  · right; exact ⟨hf, by simpa using h⟩

/-- The bounds are reached. -/
example : Words (.str s%"balji bamri") [s%"balji", s%"bamri"] :=
  .word (u := []) (w := s%"balji") (rest := s%" bamri") rfl (by decide) rfl (by simp; decide)
    (.word (u := s%" ") (w := s%"bamri") (rest := []) rfl (by decide) rfl (by simp) (.none rfl))
example : getLujvo .linked {} false (.str s%"balji bamri") = .ok s%"baljybamri" ∧
    getLujvo .linked { yHyphens := .forceY } false (.list [s%"co'a", s%"mlatu"]) = .ok s%"co'a'ymlatu" := by decide +kernel
example : Gismu false (reading s%"balji") ∧ Gismu false (reading s%"BAMri") :=
  ⟨.cvccv (by decide) (by decide) (by decide) (by decide), .cvccv (by decide) (by decide) (by decide) (by decide)⟩

/-- **C63.** Not so with cmavo or zi'evla: `se mlatu` is shorter than `selmlatu`, `spageti mlatu` than `spageti'ymlatu`. -/
theorem C63_words_false :
    getLujvo .linked {} false (.list [s%"se", s%"mlatu"]) = .ok s%"selmlatu" ∧ s%"selmlatu".length > s%"semlatu".length ∧
    getLujvo .linked {} false (.list [s%"spageti", s%"mlatu"]) = .ok s%"spageti'ymlatu" ∧
    s%"spageti'ymlatu".length > s%"spagetimlatu".length := by decide +kernel

end Jvotci
