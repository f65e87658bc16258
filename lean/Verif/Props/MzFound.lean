import Verif.Lemmas.MzFound
import Verif.Props.Looser

/-!
# C57: with `allow_mz`, `get_lujvo` does at least as well
-/

namespace Jvotci

open Spec

/-- **C57**. If `get_lujvo` returns a lujvo without `allow_mz`, that word is still a candidate with it, with the same score.
So `get_lujvo` then returns a word with this score or a lower one. The one exception is that of `C53`: the best of the
candidates is a slinku'i, and `get_lujvo` raises `NoLujvoFoundError`. -/
theorem C57_not_worse {s : Settings} {g : Bool} {t : Tanru} {ws : List Str} {w : Str} {sc : Int} {ix : List (Nat × Nat)}
    (hs : s.allowMz = false) (hw : Words t ws) (hv : ∀ v ∈ ws.map reading, Spelled v ∧ v.length < 10 ^ 90)
    (h : getLujvoWithAnalytics .linked s g t = .ok (w, sc, ix)) (hlen : w.length < 10 ^ 96) :
    LujvoOf .linked { s with allowMz := true } g (ws.map reading) w sc ∧
    ((∃ w' sc' ix', getLujvoWithAnalytics .linked { s with allowMz := true } g t = .ok (w', sc', ix') ∧ sc' ≤ sc) ∨
    (g = false ∧ getLujvoWithAnalytics .linked { s with allowMz := true } g t = .error .noLujvo ∧
      ∃ w' sc', LujvoOf .linked { s with allowMz := true } g (ws.map reading) w' sc' ∧ sc' ≤ sc ∧
        (program .linked).slinkuhi s.yHyphens true w' = .ok true)) := by
  have hne : ∀ w ∈ ws, reading w ≠ [] := fun w hw => (hv _ (List.mem_map_of_mem hw)).1.ne
  rw [analytics_of hw hne] at h ⊢
  obtain ⟨h1, h2⟩ := mz_found hs hv h (lujvoOf_short (getLujvoFromList_best.1 _ h).1 hlen)
  refine ⟨h1, ?_⟩
  rcases h2 with ⟨r', h3, h4⟩ | ⟨h3, h4, w', sc', h5, h6, h7⟩
  · exact .inl ⟨_, _, _, h3, h4⟩
  · exact .inr ⟨h3, h4, w', sc', h5, h6 _ _ h1, h7⟩

/-- **C57**, for gismu and cmavo: no exception. -/
theorem C57_gismu_and_cmavo {s : Settings} {g : Bool} {t : Tanru} {ws : List Str} {w : Str} {sc : Int} {ix : List (Nat × Nat)}
    (hs : s.allowMz = false) (hw : Words t ws) (hv : ∀ v ∈ ws.map reading, Plain false v ∧ v.length < 10 ^ 90)
    (h : getLujvoWithAnalytics .linked s g t = .ok (w, sc, ix)) (hlen : w.length < 10 ^ 96) :
    ∃ w' sc' ix', getLujvoWithAnalytics .linked { s with allowMz := true } g t = .ok (w', sc', ix') ∧ sc' ≤ sc := by
  obtain ⟨l, hl1, hl2⟩ : ∃ l, ws.mapM normalise = .ok l ∧ getLujvoFromList (program .linked) s g l = .ok (w, sc, ix) := by
    rw [hw.list, getLujvoWithAnalytics_program] at h
    exact bind_ok h
  have e := mapM_normalise_ok hl1
  subst e
  have hl := (getLujvoFromList_best.1 _ hl2).1
  have hsp := plain_spelled (fun v hm => by rw [hs]; exact (hv v hm).1) hl
  obtain ⟨h1, h2⟩ := C57_not_worse hs hw (fun v hm => ⟨hsp v hm, (hv v hm).2⟩) h hlen
  obtain ⟨w', sc', ix', h3⟩ := C53_gismu_and_cmavo_partial hw (fun v hm => (hv v hm).1.imp_left fun h => by
    cases h with
    | cvccv h1 h2 h3 h4 => exact .cvccv h1 h2 (pair_true h3) h4
    | ccvcv h1 h2 h3 h4 => exact .ccvcv h1 h2 h3 h4) h1 hlen
  rcases h2 with h2 | ⟨-, h2, -⟩
  · exact h2
  · rw [h3] at h2; cases h2

theorem table_noMz : RAFSI_LIST.all (fun e => (List.range e.1.length).all fun i => (e.1.drop i).take 2 != s%"mz") = true := by decide +kernel

theorem usable_noMz {s : Settings} {v x : Str} {k : Kind} (hs : s.allowMz = false) (hv : Spelled v) (hd : '-' ∉ v) (h : Usable .linked s v x k) :
    NoMz v := by
  have hlast : v.getLast? ≠ some '-' := fun h => hd (List.mem_of_getLast? h)
  have hr := reading_letters (spelled_letters hv hd)
  have hdash : ∀ {x : Str}, ¬ Dashed v x := fun h => hlast (dashed_last h)
  cases h with
  | listed _ h =>
    rintro ⟨u, w, rfl⟩
    have := List.all_eq_true.1 (List.all_eq_true.1 table_noMz _ h) u.length (by simp)
    simp at this
  | stem _ h => have := wordType_noMz hs h; rwa [hr] at this
  | word _ h =>
    rcases h with h | h
    · have := wordType_noMz hs h; rwa [hr] at this
    · have := wordType_noMz hs h; rwa [hr] at this
  | rafsi h => exact absurd h hdash
  | zihevla h => exact absurd h hdash
  | experimental h => exact absurd h hdash
  | cut h => exact absurd (by rw [h]; simp) hd

theorem represents_usable {b : Build} {s : Settings} {n i : Nat} {vs : List Str} {zs : List Slot} (h : Represents b s n i vs zs) :
    ∀ v ∈ vs, ∃ z ∈ zs, Usable b s v z.rafsi z.kind := by
  induction h with
  | nil => simp
  | @cons i v vs z zs hu _ _ ih =>
    intro v hv
    rcases List.mem_cons.1 hv with rfl | hv
    · exact ⟨z, by simp, hu⟩
    · obtain ⟨z, hz, h⟩ := ih v hv
      exact ⟨z, by simp [hz], h⟩

/-- **C57**, for words and CLL rafsi: no exception. -/
theorem C57_words {s : Settings} {g : Bool} {t : Tanru} {ws : List Str} {w : Str} {sc : Int} {ix : List (Nat × Nat)}
    (hs : s.allowMz = false) (hw : Words t ws) (hv : ∀ v ∈ ws.map reading, Spelled v ∧ v.length < 10 ^ 90 ∧ WordOrRafsi false v)
    (h : getLujvoWithAnalytics .linked s g t = .ok (w, sc, ix)) (hlen : w.length < 10 ^ 96) :
    ∃ w' sc' ix', getLujvoWithAnalytics .linked { s with allowMz := true } g t = .ok (w', sc', ix') ∧ sc' ≤ sc := by
  obtain ⟨l, hl1, hl2⟩ : ∃ l, ws.mapM normalise = .ok l ∧ getLujvoFromList (program .linked) s g l = .ok (w, sc, ix) := by
    rw [hw.list, getLujvoWithAnalytics_program] at h
    exact bind_ok h
  have e := mapM_normalise_ok hl1
  subst e
  obtain ⟨zs, hy, hrep, -⟩ := (getLujvoFromList_best.1 _ hl2).1
  obtain ⟨h1, h2⟩ := C57_not_worse hs hw (fun v hm => ⟨(hv v hm).1, (hv v hm).2.1⟩) h hlen
  have hmz : ∀ v ∈ ws.map reading, '-' ∉ v → NoMzWord { s with allowMz := true } v := by
    intro v hm hd _
    obtain ⟨z, -, hu⟩ := represents_usable hrep v hm
    exact .inr (usable_noMz hs (hv v hm).1 hd hu)
  obtain ⟨w', sc', ix', h3⟩ := C53_words_partial hw (fun v hm => ⟨(hv v hm).1, (hv v hm).2.1,
    (hv v hm).2.2.imp id fun ⟨x, i, j, e, h⟩ => ⟨x, i, j, e, rafsi_true h⟩⟩) hmz h1 hlen
  rcases h2 with h2 | ⟨-, h2, -⟩
  · exact h2
  · rw [h3] at h2; cases h2

/-- The hypotheses are met, and allowing mz makes the word better. -/
example : Spelled s%"cumki" ∧ Spelled s%"zbasu" :=
  ⟨⟨s%"cumki", 0, 0, rfl, by decide, by decide, by decide, by decide⟩, s%"zbasu", 0, 0, rfl, by decide, by decide, by decide, by decide⟩
example : getLujvoWithAnalytics .linked {} false (.str s%"cumki zbasu") = .ok (s%"cu'izba", 6867, [(0, 4), (4, 7)]) := by decide +kernel
example : getLujvoWithAnalytics .linked { allowMz := true } false (.str s%"cumki zbasu") = .ok (s%"cumzba", 5878, [(0, 3), (3, 6)]) := by decide +kernel

/-- The hypotheses of `C57_words` with a zi'evla and a rafsi. -/
example : Spelled s%"spageti" ∧ WordOrRafsi false s%"spageti" ∧ Spelled s%"-cum-" ∧ WordOrRafsi false s%"-cum-" :=
  ⟨⟨s%"spageti", 0, 0, rfl, by decide, by decide, by decide, by decide⟩, .inl (by decide),
    ⟨s%"cum", 1, 1, rfl, by decide, by decide, by decide, by decide⟩, .inr ⟨s%"cum", 1, 0, rfl, .cvc (by decide) (by decide) (by decide)⟩⟩
example : getLujvoWithAnalytics .linked {} false (.str s%"spageti -cum- zbasu") = .ok (s%"spageti'ycumyzba", 16075, [(0, 7), (9, 12), (13, 16)]) := by
  decide +kernel
example : getLujvoWithAnalytics .linked { allowMz := true } false (.str s%"spageti -cum- zbasu") =
    .ok (s%"spageti'ycumzba", 14975, [(0, 7), (9, 12), (12, 15)]) := by decide +kernel

end Jvotci
