import Verif.Lemmas.Exchange
import Verif.Props.Analytics
import Verif.Props.Pinned
import Verif.Props.Lujvo

/-!
# C38: a made lujvo is read back as made

The property is false in general, see `C38_false`. `C38_read_back_partial` gives what is needed besides; for tanru of gismu
and cmavo nothing is (`C38_gismu_partial`).
-/

namespace Jvotci

open Spec

/-- Letters without a consonant cluster. -/
def CmavoForm (v : Str) : Prop :=
  (∀ c ∈ v, Vowel c ∨ Consonant c ∨ c = '\'') ∧ ∀ a b, Adjacent v a b → ¬ (Consonant a ∧ Consonant b)

theorem reading_made {s : Settings} {g : Bool} {l : List (Str × Str)} (h : Made s g l) : reading (spell l) = spell l := by
  have hl : ∀ c ∈ spell l, readChar c = [c] ∧ c ≠ '.' := by
    intro c hc
    obtain ⟨y, hy, hcy⟩ := List.mem_flatten.1 hc
    obtain ⟨p, hp, rfl⟩ := List.mem_map.1 hy
    rcases List.mem_append.1 hcy with hcy | hcy
    · exact readChar_letter (rafsi_letters (h.rafsi p hp) c hcy)
    · have key : ∀ q ∈ [[], s%"y", s%"'y", s%"r", s%"n"], ∀ c ∈ q, readChar c = [c] ∧ c ≠ '.' := by decide
      refine key p.2 ?_ c hcy
      have := canon_glue h.canon p hp
      unfold Glue at this
      simpa using this
  have hf := flatMap_readChar_stable (fun d hd => (hl d hd).1)
  unfold reading
  split
  · rename_i cs e
    exact absurd rfl (hl '.' (by rw [e]; simp)).2
  · exact hf

theorem read_back_made {b : Build} {s : Settings} {g : Bool} {vs : List Str} {r : Str × Int × List (Nat × Nat)} {zs : List Slot} {hy : Str}
    (h : getLujvoFromList (program b) s g vs = .ok r) (hrep : Represents b s vs.length 0 vs zs) (hL : Legal s g zs hy)
    (hw : r.1 = wordOf zs hy) (hsc : r.2.1 = cost zs hy) (hlay : Layout s.allowMz r.1 (zs.map Slot.rafsi) r.2.2)
    (hr : ∀ z ∈ zs, Rafsi s.allowMz z.rafsi ∧ Diph z.rafsi) (hlong : ∀ z ∈ zs.dropLast, kindOf z.rafsi ≠ .long)
    (hb : g = false → b = .linked) (hlen : r.1.length < 10 ^ 96) :
    ∃ l, analyseBrivla b s r.1 = .ok (if g then .cmevla else .lujvo, flat l) ∧ getRafsiIndices (flat l) = r.2.2 ∧
      Made s g l ∧ l.map Prod.fst = zs.map Slot.rafsi := by
  obtain ⟨l, hM, hA, e1, e2, e3⟩ := found_made h hrep hL hw hsc hlay (fun z hz => (hr z hz).1) hlong
  have hd : ∀ p ∈ l, Diph p.1 := by
    intro p hp
    have : p.1 ∈ zs.map Slot.rafsi := by rw [← e2]; exact List.mem_map_of_mem hp
    obtain ⟨z, hz, e⟩ := List.mem_map.1 this
    rw [← e]
    exact (hr z hz).2
  refine ⟨l, ?_, ?_, hM, e2⟩
  · have hfl : (flat l).flatten = r.1 := by rw [flat_spell, e1]
    cases g with
    | false =>
      have hp := made_lujvoPieces hM hA (Ext.refl _ l) hd
      cases hb rfl
      refine C41_every_lujvo ?_ hp (by rw [hfl]; exact hlen)
      rw [hfl, e1]
      exact reading_made hM
    | true =>
      have hp := made_cmevlaPieces hM hA (Ext.refl _ l) hd (by
        intro x h x' h' l' m' e1 e2 e3
        rw [e1] at e2
        simp only [List.cons.injEq, Prod.mk.injEq] at e2
        exact absurd e2.1.2.symm e3)
      refine C42_every_cmevla ?_ hp (by rw [hfl]; exact hlen)
      rw [hfl, e1]
      exact reading_made hM
  · rw [← e3]
    exact indices_places (mz := s.allowMz) (fun p hp => ⟨hM.rafsi p hp, canon_glue hM.canon p hp⟩)

theorem read_back {b : Build} {s : Settings} {g : Bool} {vs : List Str} {r : Str × Int × List (Nat × Nat)} {zs : List Slot} {hy : Str}
    (h : getLujvoFromList (program b) s g vs = .ok r) (hrep : Represents b s vs.length 0 vs zs) (hL : Legal s g zs hy)
    (hw : r.1 = wordOf zs hy) (hsc : r.2.1 = cost zs hy) (hlay : Layout s.allowMz r.1 (zs.map Slot.rafsi) r.2.2)
    (hr : ∀ z ∈ zs, Rafsi s.allowMz z.rafsi ∧ Diph z.rafsi) (hlong : ∀ z ∈ zs.dropLast, kindOf z.rafsi ≠ .long)
    (hb : g = false → b = .linked) (hlen : r.1.length < 10 ^ 96) :
    ∃ ps, analyseBrivla b s r.1 = .ok (if g then .cmevla else .lujvo, ps) ∧ getRafsiIndices ps = r.2.2 := by
  obtain ⟨l, h1, h2, -⟩ := read_back_made h hrep hL hw hsc hlay hr hlong hb hlen
  exact ⟨_, h1, h2⟩

/-- **C38** (partial). What `get_lujvo_with_analytics` returns is accepted by `analyse_brivla` under the same options, as a
LUJVO or as a CMEVLA if one was asked for, and the index pairs of the decomposition (`get_rafsi_indices`) are those
reported, provided that the parts of the word are rafsi of gismu or cmavo with proper diphthongs, only the last has five
letters, and the word is not longer than 10^96. Missing: words with other parts, for which it may be false. -/
theorem C38_read_back_partial {b : Build} {s : Settings} {g : Bool} {t : Tanru} {w : Str} {sc : Int} {ix : List (Nat × Nat)}
    (h : getLujvoWithAnalytics b s g t = .ok (w, sc, ix))
    (hr : ∀ p ∈ ix, Rafsi s.allowMz (slice w p.1 p.2) ∧
      ∀ c a b, slice w p.1 p.2 = [c, a, b] → Vowel a → Vowel b → [a, b] ∈ [s%"ai", s%"ei", s%"oi", s%"au"])
    (h5 : ∀ p ∈ ix.dropLast, (slice w p.1 p.2).length ≠ 5) (hlen : w.length < 10 ^ 96) :
    ∃ ps, analyseBrivla b s w = .ok (if g then .cmevla else .lujvo, ps) ∧ getRafsiIndices ps = ix := by
  have hb : g = false → b = .linked := by
    rintro rfl
    cases b with
    | linked => rfl
    | pinned => exact absurd h ((C34_no_lujvo_at_pinned s t).2 _)
  rw [getLujvoWithAnalytics_program] at h
  obtain ⟨vs, -, h⟩ := bind_ok h
  obtain ⟨zs, hy, hrep, hL, hw, hsc, hlay⟩ := found_slots h
  have hsl := hlay.slices
  simp only at hsl
  refine read_back (r := (w, sc, ix)) h hrep hL hw hsc hlay ?_ ?_ hb hlen
  · intro z hz
    have : z.rafsi ∈ ix.map (fun p => slice w p.1 p.2) := by rw [hsl]; exact List.mem_map_of_mem hz
    obtain ⟨p, hp, e⟩ := List.mem_map.1 this
    rw [← e]
    exact hr p hp
  · intro z hz hk
    have : z.rafsi ∈ (ix.map (fun p => slice w p.1 p.2)).dropLast := by
      rw [hsl, ← List.map_dropLast]; exact List.mem_map_of_mem hz
    rw [← List.map_dropLast] at this
    obtain ⟨p, hp, e⟩ := List.mem_map.1 this
    have h5 := h5 p hp
    rw [e] at h5
    have hz' : z.rafsi ∈ ix.map (fun p => slice w p.1 p.2) := by rw [hsl]; exact List.mem_map_of_mem (List.dropLast_subset _ hz)
    obtain ⟨q, hq, eq⟩ := List.mem_map.1 hz'
    have hrk := rafsi_rk (eq ▸ (hr q hq).1)
    rw [hk] at hrk
    generalize z.rafsi = x at hrk h5
    cases hrk <;> simp at h5

/-- The slots of the word made of gismu and cmavo. -/
theorem plain_made {b : Build} {s : Settings} {g : Bool} {t : Tanru} {ws : List Str} {w : Str} {sc : Int} {ix : List (Nat × Nat)}
    (hws : Words t ws) (hv : ∀ v ∈ ws, Gismu s.allowMz (reading v) ∨ CmavoForm (reading v))
    (h : getLujvoWithAnalytics b s g t = .ok (w, sc, ix)) (hlen : w.length < 10 ^ 96) :
    ∃ l zs, analyseBrivla b s w = .ok (if g then .cmevla else .lujvo, flat l) ∧ getRafsiIndices (flat l) = ix ∧
      Made s g l ∧ l.map Prod.fst = zs.map Slot.rafsi ∧ Represents b s (ws.map reading).length 0 (ws.map reading) zs := by
  have hb : g = false → b = .linked := by
    rintro rfl
    cases b with
    | linked => rfl
    | pinned => exact absurd h ((C34_no_lujvo_at_pinned s t).2 _)
  rw [hws.list, getLujvoWithAnalytics_program] at h
  obtain ⟨vs, hvs, h⟩ := bind_ok h
  cases mapM_normalise_ok hvs
  have hp : ∀ v ∈ ws.map reading, Plain s.allowMz v := by
    intro v hv'
    obtain ⟨w, hw, rfl⟩ := List.mem_map.1 hv'
    exact hv w hw
  obtain ⟨zs, hy, hrep, hL, hw, hsc, hlay⟩ := found_slots h
  obtain ⟨l, h1, h2, h3, h4⟩ := read_back_made (r := (w, sc, ix)) h hrep hL hw hsc hlay
    (fun z hz => by
      obtain ⟨v, hvm, hu⟩ := represents_mem hrep z hz
      exact plain_rafsi (hp v hvm) hu)
    (plain_short hp hrep hL (fun w' sc' hw' => by
      rw [← hsc]
      exact (getLujvoFromList_best.1 _ h).2 _ _ hw')) hb hlen
  exact ⟨l, zs, h1, h2, h3, h4, hrep⟩

/-- **C38** (partial). For a tanru whose words are gismu and cmavo, nothing else is needed: the lujvo is accepted, and divided
where it was put together. Missing: tanru with other words or with rafsi between dashes. -/
theorem C38_gismu_partial {b : Build} {s : Settings} {g : Bool} {t : Tanru} {ws : List Str} {w : Str} {sc : Int} {ix : List (Nat × Nat)}
    (hws : Words t ws) (hv : ∀ v ∈ ws, Gismu s.allowMz (reading v) ∨ CmavoForm (reading v))
    (h : getLujvoWithAnalytics b s g t = .ok (w, sc, ix)) (hlen : w.length < 10 ^ 96) :
    ∃ ps, analyseBrivla b s w = .ok (if g then .cmevla else .lujvo, ps) ∧ getRafsiIndices ps = ix := by
  obtain ⟨l, zs, h1, h2, -⟩ := plain_made hws hv h hlen
  exact ⟨_, h1, h2⟩

example : getLujvoWithAnalytics .linked {} false (.str s%"fagri genxu karce moklu") =
    .ok (s%"fagygexykarcymo'u", 17115, [(0, 3), (4, 7), (8, 12), (13, 17)]) ∧
    analyseBrivla .linked {} s%"fagygexykarcymo'u" = .ok (.lujvo, [s%"fag", s%"y", s%"gex", s%"y", s%"karc", s%"y", s%"mo'u"]) := by decide +kernel

example : Words (.str s%"fagri genxu karce moklu") [s%"fagri", s%"genxu", s%"karce", s%"moklu"] ∧
    ∀ v ∈ [s%"fagri", s%"genxu", s%"karce", s%"moklu"], Gismu false (reading v) ∨ CmavoForm (reading v) := by
  constructor
  · exact .word (u := []) (w := s%"fagri") (rest := s%" genxu karce moklu") rfl (by decide) rfl (by simp; decide)
      (.word (u := s%" ") (w := s%"genxu") (rest := s%" karce moklu") rfl (by decide) rfl (by simp; decide)
      (.word (u := s%" ") (w := s%"karce") (rest := s%" moklu") rfl (by decide) rfl (by simp; decide)
      (.word (u := s%" ") (w := s%"moklu") (rest := []) rfl (by decide) rfl (by simp) (.none rfl))))
  · have : ∀ v ∈ [s%"fagri", s%"genxu", s%"karce", s%"moklu"], isGismu false (reading v) = true := by decide +kernel
    exact fun v hv => .inl (isGismu_iff.1 (this v hv))

/-- A word that meets the hypotheses of `C38_read_back_partial`, with rafsi between dashes, and a cmevla. -/
example : getLujvoWithAnalytics .pinned {} true (.list [s%"-sai-", s%"zbasu", s%"-tas-"]) = .ok (s%"saizbatas", 8795, [(0, 3), (3, 6), (6, 9)]) ∧
    analyseBrivla .pinned {} s%"saizbatas" = .ok (.cmevla, [s%"sai", s%"zba", s%"tas"]) := by decide +kernel

/-- **C38** is false in general. With the default options, `get_lujvo` makes a word of a rafsi with an improper diphthong,
which `analyse_brivla` rejects. -/
theorem C38_false : ∃ t w sc ix, getLujvoWithAnalytics .linked {} false t = .ok (w, sc, ix) ∧ analyseBrivla .linked {} w = .error .notBrivla :=
  ⟨.list [s%"-zii-", s%"-sfo-"], s%"ziisfo", 5846, [(0, 3), (3, 6)], by decide +kernel⟩

/-- Another case, with experimental rafsi. -/
theorem C38_false_experimental : ∃ t w sc ix, getLujvoWithAnalytics .linked { expRafsi := true } false t = .ok (w, sc, ix) ∧
    analyseBrivla .linked { expRafsi := true } w = .error .notBrivla :=
  ⟨.str s%"mlatu -iai-", s%"latyiai", 7046, [(0, 3), (4, 7)], by decide +kernel⟩

end Jvotci
