import Verif.Lemmas.NoIndex
import Verif.Props.BackWords

/-!
# C38 for cmevla with zi'evla

Which of the cmevla that `get_lujvo` makes of words, among them zi'evla, `analyse_brivla` accepts.
-/

namespace Jvotci

open Spec

theorem cm_back {s : Settings} {vs : List Str} {w : Str} {sc : Int} {ix : List (Nat × Nat)} (hv : ∀ v ∈ vs, ∀ d ∈ v, readChar d = [d])
    (h : getLujvoFromList (program .linked) s true vs = .ok (w, sc, ix)) (hm : (∀ v ∈ vs, NoMzWord s v) ∨ NoMz w)
    (hp : ∀ v ∈ vs, ∀ p ∈ ix, Dashed v (slice w p.1 p.2) →
      (∃ a b, Adjacent (slice w p.1 p.2) a b ∧ Consonant a ∧ Consonant b) ∨ Rafsi s.allowMz (slice w p.1 p.2) ∧ Diph (slice w p.1 p.2))
    (hlen : w.length + 1 < 10 ^ 93) :
    reading w = w ∧
    (∀ ty ps, analyseBrivla .linked s w = .ok (ty, ps) → ty = .cmevla ∧ getRafsiIndices ps = ix) ∧
    ((∃ ps, analyseBrivla .linked s w = .ok (.cmevla, ps)) ↔
      (∃ qs, CmevlaPieces s qs ∧ qs.flatten = w) ∨ (¬ BeginningFallsOff s w ∧ ¬ SlinkuhiCmevla s w)) ∧
    ∃ zs l, Represents .linked s vs.length 0 vs zs ∧
      (∀ z ∈ zs, UnitOf s z.rafsi z.kind ∧ Clean z.rafsi ∧ z.rafsi.length + 1 < 10 ^ 94) ∧
      (∀ z, zs.getLast? = some z → ∃ c, z.rafsi.getLast? = some c ∧ Consonant c) ∧
      (∀ p ∈ l, (Clean p.1 ∧ ∃ c ∈ p.1, Vowel c) ∧ Gap p.2) ∧ Gaps true zs l ∧
      ∀ ps, analyseBrivla .linked s w = .ok (.cmevla, ps) → ps = flat l := by
  have hlen4 : w.length + 1 < 10 ^ 94 := Nat.lt_of_lt_of_le hlen (Nat.pow_le_pow_right (by decide) (by decide))
  obtain ⟨zs, hy, hrep, hL, hw, hsc, hlay⟩ := found_slots h
  simp only at hw hsc hlay
  have hsl := hlay.slices
  have hclean := layout_clean hlay
  have hzl : ∀ z ∈ zs, z.rafsi.length + 1 < 10 ^ 94 := by
    intro z hz
    have hzm : z.rafsi ∈ ix.map (fun p => slice w p.1 p.2) := by rw [hsl]; exact List.mem_map_of_mem hz
    obtain ⟨p, hpm, e⟩ := List.mem_map.1 hzm
    have : (slice w p.1 p.2).length ≤ w.length := by
      unfold slice
      simp
      omega
    rw [← e]
    omega
  have hu : ∀ z ∈ zs, UnitOf s z.rafsi z.kind := fun z hz => by
    obtain ⟨v, hvm, hu⟩ := represents_mem hrep z hz
    have hzm : z.rafsi ∈ ix.map (fun p => slice w p.1 p.2) := by rw [hsl]; exact List.mem_map_of_mem hz
    obtain ⟨p, hpm, e⟩ := List.mem_map.1 hzm
    refine usable_unit hu (hm.imp (fun h => h v hvm) fun h => ?_) (hv v hvm) (hclean _ (List.mem_map_of_mem hz)) ?_ ?_
    · rw [← e]
      exact noMz_slice h
    · exact hzl z hz
    · intro hd
      rw [← e] at hd ⊢
      exact hp v hvm p hpm hd
  obtain ⟨y, z, rest, rfl, -⟩ := hL.first
  have hrep0 := hrep
  cases hrep with
  | @cons _ v vs _ _ _ hwr hrep =>
    have hrl := represents_length hrep
    have hP := placed_of hrep (by simp; omega) (by simp) (fun x hx => hu x (List.mem_cons_of_mem _ hx))
      (fun p q ⟨u, v, e⟩ => hL.joints p q ⟨y :: u, v, by rw [e]; rfl⟩) (by simp)
    have hl : (0 + 1 == (v :: vs).length) = false := by
      simp at hrl ⊢
      intro e
      rw [e] at hrl
      simp at hrl
    rw [hl] at hwr
    obtain ⟨l, ps, hG, hccv, he, hfst, hrn, ⟨u, z', el⟩, hgaps⟩ := glue_slots_cm (hu y (by simp)) hwr hP hL
    have hwl : w = spell l := hw.trans he
    have hend : ∃ c, (spell l).getLast? = some c ∧ Consonant c := by
      obtain ⟨c, hc, hcv⟩ := hL.ends
      exact ⟨c, by rw [← he]; exact hc, by simpa using hcv⟩
    have hcv : ∀ x ∈ l.map Prod.fst, Clean x ∧ ∃ c ∈ x, Vowel c := by
      intro x hx
      rw [hfst] at hx
      obtain ⟨q, hq, rfl⟩ := List.mem_map.1 hx
      exact ⟨hclean _ (List.mem_map_of_mem hq), unit_vowel (hu q hq)⟩
    have h2 : 2 ≤ l.length := by
      have := congrArg List.length hfst
      simp at this
      omega
    have hgu : ∀ p ∈ u, Gap p.2 := by
      obtain ⟨u1, z1, e1, hg⟩ := glued_gaps hG
      rw [el, withY_snoc] at e1
      have e1' : (u ++ [(z', s%"y")]) ++ [(s%"bai", [])] = u1 ++ [(z1, [])] := by simpa using e1
      have := (List.append_inj' e1' rfl).1
      intro p hp
      exact hg p (by rw [← this]; simp [hp])
    have hgg : ∀ p ∈ l, (Clean p.1 ∧ ∃ c ∈ p.1, Vowel c) ∧ Gap p.2 := by
      intro p hp
      refine ⟨hcv p.1 (List.mem_map_of_mem hp), ?_⟩
      rw [el] at hp
      rcases List.mem_append.1 hp with hp | hp
      · exact hgu p hp
      · simp at hp
        subst hp
        exact .inl rfl
    have hlast : ∀ q, (y :: z :: rest).getLast? = some q → ∃ c, q.rafsi.getLast? = some c ∧ Consonant c := by
      intro q hq
      have e1 : (l.map Prod.fst).getLast? = some q.rafsi := by
        rw [hfst, List.getLast?_map, hq]; rfl
      have e2 : z' = q.rafsi := by
        rw [el, List.map_append] at e1
        simpa using e1
      obtain ⟨c, hc, hcc⟩ := hend
      refine ⟨c, ?_, hcc⟩
      have hne : z' ≠ [] := by
        obtain ⟨⟨-, d, hd, -⟩, -⟩ := hgg (z', []) (by rw [el]; simp)
        rintro rfl
        cases hd
      have es : spell l = spell u ++ z' := by rw [el]; simp [spell]
      rw [es, List.getLast?_append] at hc
      rw [← e2]
      cases hz : z'.getLast? with
      | none => exact absurd (List.getLast?_eq_none_iff.1 hz) hne
      | some d => rw [hz] at hc; exact hc
    -- the places
    have hix : getRafsiIndices (flat l) = ix := by
      obtain ⟨u', z'', e2, e3, hg', e4⟩ := layout_pairs hlay
      subst el
      obtain ⟨rfl, rfl⟩ := gaps_unique_clean (hfst.trans e3.symm) hcv hgu hg' (by rw [← hwl, e2])
      rw [← e4]
      exact indices_clean hgg
    obtain ⟨ps1, hne, hps1, hj, hjp⟩ := cm_parts hG el
    have hread : reading w = w := by
      rw [hwl]
      refine reading_lettersY fun c hc => parts_letters (glued_parts hG).1 c ?_
      rw [hps1, joinParts_last hne, hj]
      simp [hc]
    have hword := fun hfall hsl => cm_word hG el h2 hccv hrn (fun q hq => (hcv q.1 (List.mem_map_of_mem hq)).2) hend (by rw [← hwl]; omega) hfall hsl
    rw [← hwl] at hword
    have hnoidx : isSlinkuhi (program .linked) s.yHyphens s.allowMz w ≠ .error .index := by
      obtain ⟨q, hq, e⟩ : ∃ q ∈ y :: z :: rest, q.rafsi = z' := by
        have : z' ∈ l.map Prod.fst := by rw [el]; simp
        rw [hfst] at this
        obtain ⟨q, hq, e⟩ := List.mem_map.1 this
        exact ⟨q, hq, e⟩
      have hqu := hu q hq
      rw [e] at hqu
      rw [hwl]
      refine glued_no_index hG el h2 hend hqu fun hk hz => ?_
      obtain ⟨v', hvm, hus⟩ := represents_mem hrep0 q hq
      rw [hk, e] at hus
      exact found_no_index h hvm (hv v' hvm) hus hz
    have hsound : ∀ ps, analyseBrivla .linked s w = .ok (.cmevla, ps) →
        (ps.flatten = w ∧ CmevlaPieces s ps) ∨ (¬ BeginningFallsOff s w ∧ ¬ SlinkuhiCmevla s w) := by
      intro ps ha
      rcases C49_only_cmevla (by omega) ha with ⟨h1, h2⟩ | ⟨parts, h1, -, h2⟩
      · exact .inl ⟨by rw [h1, hread], h2⟩
      · have := extendedCmevla_sound h2
        rw [h1, hread] at this
        exact .inr this
    have hflat : ∀ ps, analyseBrivla .linked s w = .ok (.cmevla, ps) → ps = flat l := by
      intro ps ha
      rcases hsound ps ha with ⟨h1, h2⟩ | ⟨h1, h2⟩
      · exact cm_read hG el h2 (by rw [h1, hwl])
      · rcases hword h1 h2 with h | ⟨h, -⟩
        · rw [ha] at h
          cases h
          rfl
        · rw [ha] at h
          cases h
    refine ⟨hread, ?_, ⟨?_, ?_⟩, y :: z :: rest, l, hrep0, fun q hq => ⟨hu q hq, hclean _ (List.mem_map_of_mem hq), hzl q hq⟩, hlast, hgg, hgaps, hflat⟩
    · intro ty ps ha
      have hty : ty = .cmevla := by
        obtain ⟨c, hc, hcc⟩ := hend
        obtain ⟨d, hd, h⟩ := C02_type_by_last_letter ha
        rw [hread, hwl, hc] at hd
        cases hd
        rcases h with h | h
        · exact h.1
        · exact absurd hcc (vowel_not_consonant h.2)
      subst hty
      rw [hflat ps ha]
      exact ⟨rfl, hix⟩
    · rintro ⟨ps, ha⟩
      rcases hsound ps ha with ⟨h1, h2⟩ | h
      · exact .inl ⟨ps, h2, h1⟩
      · exact .inr h
    · rintro (⟨qs, hq, e⟩ | ⟨h1, h2⟩)
      · exact ⟨qs, C42_every_cmevla (by rw [hread, e]) hq (by rw [e]; exact Nat.lt_of_lt_of_le (by omega : w.length < 10 ^ 94) (Nat.pow_le_pow_right (by decide) (by decide)))⟩
      · rcases hword h1 h2 with h | ⟨-, h⟩
        · exact ⟨_, h⟩
        · exact absurd h hnoidx

/-- At the pinned commit, too, what is returned is what the code with the import returns. -/
theorem made_linked {b : Build} {s : Settings} {g : Bool} {t : Tanru} {r : Str × Int × List (Nat × Nat)}
    (h : getLujvoWithAnalytics b s g t = .ok r) : getLujvoWithAnalytics .linked s g t = .ok r := by
  cases b with
  | linked => exact h
  | pinned =>
    rcases C34_import_changes_nothing_else.2.2.2.1 s g t with h' | h'
    · rw [h] at h'; cases h'
    · rw [← h']; exact h

/-- **C38** (partial). Of the cmevla that `get_lujvo_with_analytics` makes of words, none between dashes, among them possibly
zi'evla, `analyse_brivla` accepts those that consist of rafsi alone, and those whose beginning does not fall off and that are
not slinku'i; it divides them where they were put together. Missing: the other cmevla, of which it is false
(`C38_false_cmevla`); with `allow_mz`, words with mz in them other than gismu.
At the pinned commit the call may raise `NameError` instead, and otherwise does the same (C34). -/
theorem C38_cmevla_words_partial {b : Build} {s : Settings} {t : Tanru} {ws : List Str} {w : Str} {sc : Int} {ix : List (Nat × Nat)}
    (hws : Words t ws) (hv : ∀ v ∈ ws, (reading v).head? ≠ some '-')
    (h : getLujvoWithAnalytics b s true t = .ok (w, sc, ix)) (hm : ∀ v ∈ ws, NoMzWord s (reading v)) (hlen : w.length + 1 < 10 ^ 93) :
    (∀ ty ps, analyseBrivla .linked s w = .ok (ty, ps) → ty = .cmevla ∧ getRafsiIndices ps = ix) ∧
    ((∃ ps, analyseBrivla .linked s w = .ok (.cmevla, ps)) ↔
      (∃ qs, CmevlaPieces s qs ∧ qs.flatten = w) ∨ (¬ BeginningFallsOff s w ∧ ¬ SlinkuhiCmevla s w)) := by
  replace h := made_linked h
  rw [hws.list, getLujvoWithAnalytics_program] at h
  obtain ⟨vs, hvs, h⟩ := bind_ok h
  cases mapM_normalise_ok hvs
  have hb := cm_back ?_ h (.inl ?_) ?_ hlen
  exact ⟨hb.2.1, hb.2.2.1⟩
  rotate_left
  · intro v hv
    obtain ⟨w, hw, rfl⟩ := List.mem_map.1 hv
    exact hm w hw
  rotate_left
  · intro v hv d hd
    obtain ⟨w, -, rfl⟩ := List.mem_map.1 hv
    exact reading_chars hd
  · intro v hvm p _ hd
    obtain ⟨w, hw, rfl⟩ := List.mem_map.1 hvm
    exact absurd (dashed_head hd) (hv w hw)

/-- **C38** (partial). The same for words and rafsi between dashes: each part of the word has two consonants in a row or is a
rafsi of one of the CLL shapes with no improper diphthong. Missing: as above, and experimental rafsi. -/
theorem C38_cmevla_parts_partial {b : Build} {s : Settings} {t : Tanru} {w : Str} {sc : Int} {ix : List (Nat × Nat)}
    (h : getLujvoWithAnalytics b s true t = .ok (w, sc, ix)) (hm : s.allowMz = true → ¬ Adjacent w 'm' 'z')
    (hp : ∀ p ∈ ix, (∃ a b, Adjacent (slice w p.1 p.2) a b ∧ Consonant a ∧ Consonant b) ∨
      Rafsi s.allowMz (slice w p.1 p.2) ∧
      ∀ c a b, slice w p.1 p.2 = [c, a, b] → Vowel a → Vowel b → [a, b] ∈ [s%"ai", s%"ei", s%"oi", s%"au"])
    (hlen : w.length + 1 < 10 ^ 93) :
    (∀ ty ps, analyseBrivla .linked s w = .ok (ty, ps) → ty = .cmevla ∧ getRafsiIndices ps = ix) ∧
    ((∃ ps, analyseBrivla .linked s w = .ok (.cmevla, ps)) ↔
      (∃ qs, CmevlaPieces s qs ∧ qs.flatten = w) ∨ (¬ BeginningFallsOff s w ∧ ¬ SlinkuhiCmevla s w)) := by
  replace h := made_linked h
  rw [getLujvoWithAnalytics_program] at h
  obtain ⟨vs, hvs, h⟩ := bind_ok h
  have hb := cm_back ?_ h ?_ (fun v _ p hpm _ => hp p hpm) hlen
  exact ⟨hb.2.1, hb.2.2.1⟩
  rotate_left
  · cases hs : s.allowMz with
    | false => exact .inl fun v _ h => by rw [hs] at h; cases h
    | true => exact .inr (hm hs)
  intro v hv d hd
  have key : ∀ {ws : List Str}, processTanru (.list ws) = .ok vs → ∃ w, v = reading w := by
    intro ws h
    cases mapM_normalise_ok h
    obtain ⟨w, -, rfl⟩ := List.mem_map.1 hv
    exact ⟨w, rfl⟩
  have : ∃ w, v = reading w := by
    cases t with
    | list ws => exact key hvs
    | str c => exact key (ws := splitWs c) hvs
  obtain ⟨w, rfl⟩ := this
  exact reading_chars hd

/-- A cmevla with zi'evla, whole and cut, that is accepted, so its beginning does not fall off and it is no slinku'i. -/
example : getLujvoWithAnalytics .pinned {} true (.list [s%"spageti", s%"cidja", s%"angas-"]) =
    .ok (s%"spageti'ydja'y'angas", 20124, [(0, 7), (9, 12), (15, 20)]) ∧
    analyseBrivla .linked {} s%"spageti'ydja'y'angas" = .ok (.cmevla, [s%"spageti", s%"'y", s%"dja", s%"'y'", s%"angas"]) := by decide +kernel

example : (∃ qs, CmevlaPieces {} qs ∧ qs.flatten = s%"spageti'ydja'y'angas") ∨
    (¬ BeginningFallsOff {} s%"spageti'ydja'y'angas" ∧ ¬ SlinkuhiCmevla {} s%"spageti'ydja'y'angas") :=
  ((C38_cmevla_words_partial (b := .pinned) (s := {}) (t := .list [s%"spageti", s%"cidja", s%"angas-"]) (ws := [s%"spageti", s%"cidja", s%"angas-"])
    (w := s%"spageti'ydja'y'angas") (sc := 20124) (ix := [(0, 7), (9, 12), (15, 20)]) rfl (by decide +kernel) (by decide +kernel)
    (fun _ _ h => by cases h) (by decide)).2.1 ⟨[s%"spageti", s%"'y", s%"dja", s%"'y'", s%"angas"], by decide +kernel⟩)

/-- The two cmevla of `C38_false_cmevla` have one fault each. -/
example : BeginningFallsOff {} s%"ficnoty'e'ailka'yteg" ∧ SlinkuhiCmevla {} s%"kriksavytiv" := by
  refine ⟨⟨s%"ficnot", s%"'e'ailka'yteg", .inl ⟨rfl, 't', rfl, by decide⟩, by decide, ?_,
    s%"fi", s%"cnot", rfl, .inr ⟨by decide, by decide⟩, .inl ⟨.ccvc (by decide) (by decide) (by decide), by decide⟩⟩, by decide, ?_⟩
  · obtain ⟨-, h⟩ := C42_only_cmevla (b := .linked) (s := {}) (w := s%"ficnot") (ps := [s%"fic", s%"not"]) (by decide +kernel) (by decide)
    exact ⟨_, h.reading, rfl⟩
  · exact (jvokaha_cmevla (s := {}) (v := s%"tokriksavytiv") ⟨'v', rfl, by decide⟩ (by decide)).1
      ⟨[s%"tok", s%"rik", s%"sav", s%"y", s%"tiv"], by decide +kernel⟩

end Jvotci
