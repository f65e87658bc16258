import Verif.Lemmas.GluedBack

/-!
# C38 with zi'evla

`get_lujvo` and `analyse_brivla` agree on words with zi'evla, whole or cut, among their parts, unless `allow_mz` is set and
a zi'evla has mz in it (`C38_false_mz`).
-/

namespace Jvotci

open Spec

theorem back_parts {s : Settings} {vs : List Str} {w : Str} {sc : Int} {ix : List (Nat × Nat)} (hv : ∀ v ∈ vs, ∀ d ∈ v, readChar d = [d])
    (h : getLujvoFromList (program .linked) s false vs = .ok (w, sc, ix)) (hm : (∀ v ∈ vs, NoMzWord s v) ∨ NoMz w)
    (hp : ∀ v ∈ vs, ∀ p ∈ ix, Dashed v (slice w p.1 p.2) →
      (∃ a b, Adjacent (slice w p.1 p.2) a b ∧ Consonant a ∧ Consonant b) ∨ Rafsi s.allowMz (slice w p.1 p.2) ∧ Diph (slice w p.1 p.2))
    (hlen : w.length + 1 < 10 ^ 94) :
    ∃ ty ps, (ty = .lujvo ∨ ty = .extendedLujvo) ∧ analyseBrivla .linked s w = .ok (ty, ps) ∧ getRafsiIndices ps = ix := by
  obtain ⟨zs, hy, hrep, hL, hw, hsc, hlay⟩ := found_slots h
  simp only at hw hsc hlay
  have hsl := hlay.slices
  have hclean := layout_clean hlay
  obtain ⟨l, ty, h1, h2, h3, -⟩ := glued_back h hrep hL hw hlay (fun z hz => by
    obtain ⟨v, hvm, hu⟩ := represents_mem hrep z hz
    have hzm : z.rafsi ∈ ix.map (fun p => slice w p.1 p.2) := by rw [hsl]; exact List.mem_map_of_mem hz
    obtain ⟨p, hpm, e⟩ := List.mem_map.1 hzm
    refine usable_unit hu (hm.imp (fun h => h v hvm) fun h => ?_) (hv v hvm) (hclean _ (List.mem_map_of_mem hz)) ?_ ?_
    · rw [← e]
      exact noMz_slice h
    · have : (slice w p.1 p.2).length ≤ w.length := by
        unfold slice
        simp
        omega
      rw [← e]
      omega
    · intro hd
      rw [← e] at hd ⊢
      exact hp v hvm p hpm hd) (by omega)
  exact ⟨ty, _, h1, h2, h3⟩

/-- **C38** (partial). The brivla that `get_lujvo_with_analytics` returns is accepted by `analyse_brivla` under the same
options as LUJVO or EXTENDED_LUJVO, and the index pairs of the decomposition (`get_rafsi_indices`) are those reported,
provided that `allow_mz` is not set or there is no mz in the word, each part of the word has two consonants in a row or is a rafsi of one of the CLL
shapes with no improper diphthong, and the word is shorter than 10^94. The parts may be zi'evla, or zi'evla without
their last vowel. Missing: zi'evla with mz and experimental rafsi, with which it may be false; cmevla (`C38_cmevla_parts_partial`). -/
theorem C38_parts_partial {b : Build} {s : Settings} {t : Tanru} {w : Str} {sc : Int} {ix : List (Nat × Nat)}
    (h : getLujvoWithAnalytics b s false t = .ok (w, sc, ix)) (hm : s.allowMz = true → ¬ Adjacent w 'm' 'z')
    (hp : ∀ p ∈ ix, (∃ a b, Adjacent (slice w p.1 p.2) a b ∧ Consonant a ∧ Consonant b) ∨
      Rafsi s.allowMz (slice w p.1 p.2) ∧
      ∀ c a b, slice w p.1 p.2 = [c, a, b] → Vowel a → Vowel b → [a, b] ∈ [s%"ai", s%"ei", s%"oi", s%"au"])
    (hlen : w.length + 1 < 10 ^ 94) :
    ∃ ty ps, (ty = .lujvo ∨ ty = .extendedLujvo) ∧ analyseBrivla b s w = .ok (ty, ps) ∧ getRafsiIndices ps = ix := by
  cases b with
  | pinned => exact absurd h ((C34_no_lujvo_at_pinned s t).2 _)
  | linked =>
    rw [getLujvoWithAnalytics_program] at h
    obtain ⟨vs, hvs, h⟩ := bind_ok h
    refine back_parts ?_ h ?_ (fun v _ p hpm _ => hp p hpm) hlen
    rotate_left
    · cases hs : s.allowMz with
      | false => exact .inl fun v _ h => by rw [hs] at h; cases h
      | true => exact .inr (hm hs)
    intro v hv d hd
    have key : ∀ {ws : List Str}, processTanru (.list ws) = .ok vs → ∃ w, v = reading w := by
      intro ws h
      cases mapM_normalise_ok h
      obtain ⟨w, -, rfl⟩ := List.mem_map.1 hv
      exact ⟨w, rfl⟩
    have : ∃ w, v = reading w := by
      cases t with
      | list ws => exact key hvs
      | str c => exact key (ws := splitWs c) hvs
    obtain ⟨w, rfl⟩ := this
    exact reading_chars hd

/-- **C38** (partial). For a tanru of words, none between dashes, nothing else is needed, except that with `allow_mz` words
that are not gismu must not have mz in them: the lujvo is accepted, and divided where it was put together. Missing: as
above. -/
theorem C38_words_partial {b : Build} {s : Settings} {t : Tanru} {ws : List Str} {w : Str} {sc : Int} {ix : List (Nat × Nat)}
    (hws : Words t ws) (hv : ∀ v ∈ ws, (reading v).head? ≠ some '-')
    (h : getLujvoWithAnalytics b s false t = .ok (w, sc, ix)) (hm : ∀ v ∈ ws, NoMzWord s (reading v)) (hlen : w.length + 1 < 10 ^ 94) :
    ∃ ty ps, (ty = .lujvo ∨ ty = .extendedLujvo) ∧ analyseBrivla b s w = .ok (ty, ps) ∧ getRafsiIndices ps = ix := by
  cases b with
  | pinned => exact absurd h ((C34_no_lujvo_at_pinned s t).2 _)
  | linked =>
    rw [hws.list, getLujvoWithAnalytics_program] at h
    obtain ⟨vs, hvs, h⟩ := bind_ok h
    cases mapM_normalise_ok hvs
    refine back_parts ?_ h (.inl ?_) ?_ hlen
    rotate_left
    · intro v hv
      obtain ⟨w, hw, rfl⟩ := List.mem_map.1 hv
      exact hm w hw
    rotate_left
    · intro v hv d hd
      obtain ⟨w, -, rfl⟩ := List.mem_map.1 hv
      exact reading_chars hd
    · intro v hvm p _ hd
      obtain ⟨w, hw, rfl⟩ := List.mem_map.1 hvm
      exact absurd (dashed_head hd) (hv w hw)

/-- Words with zi'evla, whole and cut. -/
example : getLujvoWithAnalytics .linked {} false (.str s%"spageti cidja angas- zdani") =
    .ok (s%"spageti'ydja'y'angasyzda", 24153, [(0, 7), (9, 12), (15, 20), (21, 24)]) ∧
    analyseBrivla .linked {} s%"spageti'ydja'y'angasyzda" =
      .ok (.extendedLujvo, [s%"spageti", s%"'y", s%"dja", s%"'y'", s%"angas", s%"y", s%"zda"]) := by decide +kernel

example : Words (.str s%"spageti cidja angas- zdani") [s%"spageti", s%"cidja", s%"angas-", s%"zdani"] ∧
    ∀ v ∈ [s%"spageti", s%"cidja", s%"angas-", s%"zdani"], (reading v).head? ≠ some '-' := by
  constructor
  · exact .word (u := []) (w := s%"spageti") (rest := s%" cidja angas- zdani") rfl (by decide) rfl (by simp; decide)
      (.word (u := s%" ") (w := s%"cidja") (rest := s%" angas- zdani") rfl (by decide) rfl (by simp; decide)
      (.word (u := s%" ") (w := s%"angas-") (rest := s%" zdani") rfl (by decide) rfl (by simp; decide)
      (.word (u := s%" ") (w := s%"zdani") (rest := []) rfl (by decide) rfl (by simp) (.none rfl))))
  · decide +kernel

/-- The parts of that word meet the hypothesis of `C38_parts_partial`. -/
example : ∀ p ∈ [(0, 7), (9, 12), (15, 20), (21, 24)], ∃ a b, Adjacent (slice s%"spageti'ydja'y'angasyzda" p.1 p.2) a b ∧
    Consonant a ∧ Consonant b := by
  intro p hp
  simp only [List.mem_cons, List.not_mem_nil, or_false] at hp
  rcases hp with rfl | rfl | rfl | rfl
  · exact ⟨'s', 'p', ⟨[], s%"ageti", rfl⟩, by decide⟩
  · exact ⟨'d', 'j', ⟨[], s%"a", rfl⟩, by decide⟩
  · exact ⟨'n', 'g', ⟨s%"a", s%"as", rfl⟩, by decide⟩
  · exact ⟨'z', 'd', ⟨[], s%"a", rfl⟩, by decide⟩

/-- **C38** is false with `allow_mz`: a zi'evla may then be readable as rafsi, and is not accepted as a part. -/
theorem C38_false_mz : ∃ t w sc ix, getLujvoWithAnalytics .linked { allowMz := true } false t = .ok (w, sc, ix) ∧
    analyseBrivla .linked { allowMz := true } w = .error .notBrivla :=
  ⟨.str s%"baiklamamzu kerlo", s%"baiklamamzu'ykerlo", 18083, [(0, 11), (13, 18)], by decide +kernel⟩

/-- **C38** is false of cmevla with zi'evla among their parts, with the default options. The first rafsi of such a cmevla
may fall off, and the word may be a slinku'i; `get_lujvo` tests for neither. -/
theorem C38_false_cmevla :
    (∃ t w sc ix, getLujvoWithAnalytics .linked {} true t = .ok (w, sc, ix) ∧ analyseBrivla .linked {} w = .error .notBrivla ∧
      FallsOff {} s%"ficnot" ∧ ∃ v, w = s%"ficnoty" ++ v) ∧
    ∃ t w sc ix, getLujvoWithAnalytics .linked {} true t = .ok (w, sc, ix) ∧ analyseBrivla .linked {} w = .error .notBrivla ∧
      ∃ ps, analyseBrivla .linked {} (s%"to" ++ w) = .ok (.cmevla, ps) := by
  refine ⟨⟨.str s%"frica notci e'ailka tengu", s%"ficnoty'e'ailka'yteg", 20043, [(0, 3), (3, 6), (8, 15), (17, 20)], by decide +kernel,
    by decide +kernel, ⟨s%"fi", s%"cnot", rfl, .inr ⟨by decide, by decide⟩, .inl ⟨.ccvc (by decide) (by decide) (by decide), by decide⟩⟩,
    _, rfl⟩, .str s%"kriksav- tivni", s%"kriksavytiv", 11047, [(0, 7), (8, 11)], by decide +kernel, by decide +kernel,
    [s%"tok", s%"rik", s%"sav", s%"y", s%"tiv"], by decide +kernel⟩

end Jvotci
