import Verif.Lemmas.FoundWords
import Verif.Props.Found

/-!
# `get_lujvo` on words
-/

namespace Jvotci

open Spec

/-- **C53 (partial).** If no component is a zi'evla without its last vowel or an experimental rafsi (it is a word, without
dashes, or a rafsi of one of the shapes of CLL), there is no exception: `get_lujvo` finds a lujvo whenever there is one.
(With `allow_mz`, words that are not gismu must not have mz in them.) -/
theorem C53_words_partial {s : Settings} {g : Bool} {t : Tanru} {ws : List Str} {w : Str} {sc : Int} (hw : Words t ws)
    (hs : ∀ v ∈ ws.map reading, Spelled v ∧ v.length < 10 ^ 90 ∧ WordOrRafsi s.allowMz v) (hm : ∀ v ∈ ws.map reading, '-' ∉ v → NoMzWord s v)
    (hl : LujvoOf .linked s g (ws.map reading) w sc) (hlen : w.length < 10 ^ 96) :
    ∃ w' sc' ix, getLujvoWithAnalytics .linked s g t = .ok (w', sc', ix) := by
  rw [analytics_of hw (fun w hw => (hs _ (List.mem_map_of_mem hw)).1.ne)]
  obtain ⟨r, h⟩ := words_found hs hm hl (lujvoOf_short hl hlen)
  exact ⟨_, _, _, h⟩

theorem zihevla_component {s : Settings} {w : Str} {ps : List Str} (hm : NoMzWord s (reading w)) (hlen : w.length < 10 ^ 90)
    (h : analyseBrivla .linked s w = .ok (.zihevla, ps)) : WordType .linked s (reading w) .zihevla ∧ ZWhole s (reading w) := by
  have h2 := reading_short w
  have hb : (10 : Nat) ^ 94 = 10000 * 10 ^ 90 := by decide
  obtain ⟨-, h3, h4, h5, h6, h7⟩ := (C45_zihevla (by omega)).1 h
  have hrr : reading (reading w) = reading w := reading_letters h3.sounds.letters
  have hw : WordType .linked s (reading w) .zihevla := by
    refine ⟨[reading w], (C45_zihevla (by omega)).2 ⟨by rw [hrr], ?_⟩⟩
    rw [hrr]
    refine ⟨h3, h4, fun qs hq => h5 qs ?_, h6, h7⟩
    obtain ⟨h1, h2, h3, h4, h5, h6, h7, h8⟩ := hq
    exact ⟨h1, h2, h3, h4, h5, h6, h7, fun _ => h8 rfl⟩
  obtain ⟨ps', hw'⟩ := hw
  exact ⟨⟨ps', hw'⟩, zwhole_of (noMzWord_zihevla hm hrr (by omega) hw') (fun d hd => readChar_letter (h3.sounds.letters d hd)) (by omega) hw'⟩

theorem mem_length_le {w : Str} {ws : List Str} (h : w ∈ ws) : w.length ≤ ws.flatten.length := by
  obtain ⟨u, v, rfl⟩ := List.append_of_mem h
  simp
  omega

theorem readings_length : ∀ ws : List Str, (ws.map reading).flatten.length ≤ 2 * ws.flatten.length
  | [] => by simp
  | w :: ws => by
    have h1 := reading_short w
    have h2 := readings_length ws
    rw [List.map_cons, List.flatten_cons, List.flatten_cons, List.length_append, List.length_append]
    omega

/-- **C54.** Every tanru of two or more words that `analyse_brivla` calls gismu or zi'evla has a lujvo under the same
options, and `get_lujvo` finds it; a cmevla too, if the last word is a gismu. (With `allow_mz`, the zi'evla must not have mz
in them.) -/
theorem C54_words {s : Settings} {g : Bool} {t : Tanru} {ws : List Str} (hw : Words t ws) (h2 : 2 ≤ ws.length)
    (hg : ∀ w ∈ ws, ∃ bt ps, analyseBrivla .linked s w = .ok (bt, ps) ∧ (bt = .gismu ∨ bt = .zihevla))
    (hm : ∀ w ∈ ws, NoMzWord s (reading w)) (hend : g = true → ∃ w ps, ws.getLast? = some w ∧ analyseBrivla .linked s w = .ok (.gismu, ps)) (hlen : ws.flatten.length < 10 ^ 89) :
    ∃ w sc ix, getLujvoWithAnalytics .linked s g t = .ok (w, sc, ix) := by
  have hb : (10 : Nat) ^ 90 = 10 * 10 ^ 89 := by decide
  have hb' : (10 : Nat) ^ 96 = 10000000 * 10 ^ 89 := by decide
  have hg' : ∀ v ∈ ws.map reading, v.length < 10 ^ 90 ∧ (Gismu s.allowMz v ∨ (WordType .linked s v .zihevla ∧ ZWhole s v)) := by
    intro v hv
    obtain ⟨w, hw, rfl⟩ := List.mem_map.1 hv
    have h1 := mem_length_le hw
    have h3 := reading_short w
    refine ⟨by omega, ?_⟩
    obtain ⟨bt, ps, h, rfl | rfl⟩ := hg w hw
    · exact .inl (C03_gismu_iff.1 h).2.1
    · exact .inr (zihevla_component (hm w hw) (by omega) h)
  have hlet : ∀ v ∈ ws.map reading, (∀ c ∈ v, Vowel c ∨ Consonant c ∨ c = '\'') ∧ ∃ c ∈ v, Vowel c := by
    intro v hv
    rcases (hg' v hv).2 with h | ⟨-, h⟩
    · obtain ⟨c, hc, hv⟩ := gismu_vowel h
      exact ⟨rafsi_letters (.gismu h), c, List.mem_of_getLast? hc, hv⟩
    · obtain ⟨c, hc, hv⟩ := h.form.vowel
      exact ⟨h.form.sounds.letters, c, List.mem_of_getLast? hc, hv⟩
  obtain ⟨w, sc, hl, hwl⟩ := word_lujvo (s := s) (g := g) (vs := ws.map reading) (by simpa using h2) (fun v hv => (hg' v hv).2) (by
    intro h
    obtain ⟨w, ps, e, hw⟩ := hend h
    exact ⟨reading w, by simp [e], (C03_gismu_iff.1 hw).2.1⟩)
  have hr := readings_length ws
  refine C53_words_partial hw (fun v hv => ⟨?_, (hg' v hv).1, .inl (letters_no_dash (hlet v hv).1)⟩) (fun v hv _ => ?_) hl (by omega)
  rotate_left
  · obtain ⟨w, hw, rfl⟩ := List.mem_map.1 hv
    exact hm w hw
  exact ⟨v, 0, 0, by simp, (hlet v hv).2, (hlet v hv).1, by simp, by simp⟩

example : analyseBrivla .linked {} s%"spageti" = .ok (.zihevla, [s%"spageti"]) ∧ analyseBrivla .linked {} s%"iglu" = .ok (.zihevla, [s%"iglu"]) ∧
    analyseBrivla .linked {} s%"dinju" = .ok (.gismu, [s%"dinju"]) := by decide +kernel
example : getLujvoWithAnalytics .linked {} false (.str s%"spageti iglu dinju") = .ok (s%"spageti'y'iglu'ydi'u", 20133, [(0, 7), (10, 14), (16, 20)]) := by
  decide +kernel
-- with `allow_mz`
example : NoMzWord { allowMz := true } s%"kamzu" ∧ NoMzWord { allowMz := true } s%"iglu" :=
  ⟨fun _ => .inl (.cvccv (by decide) (by decide) (by decide) (by decide)), fun _ => .inr (by simp [adjacent_cons, adjacent_single])⟩
example : getLujvoWithAnalytics .linked { allowMz := true } false (.str s%"kamzu iglu dinju") =
    .ok (s%"kamzy'iglu'ydi'u", 16115, [(0, 4), (6, 10), (12, 16)]) := by decide +kernel

/-- `C53_words_partial` with a component written as a rafsi. -/
example : WordOrRafsi false s%"lojbo" ∧ WordOrRafsi false s%"-ban-" ∧ WordOrRafsi false s%"klam-" :=
  ⟨.inl (by decide), .inr ⟨s%"ban", 1, 0, rfl, .cvc (by decide) (by decide) (by decide)⟩,
    .inr ⟨s%"klam", 0, 0, rfl, .ccvc (by decide) (by decide) (by decide)⟩⟩
example : getLujvoWithAnalytics .linked {} false (.str s%"lojbo -ban- klam- dinju") = .ok (s%"jbobanklamydi'u", 14875, [(0, 3), (3, 6), (6, 10), (11, 15)]) := by
  decide +kernel

end Jvotci
