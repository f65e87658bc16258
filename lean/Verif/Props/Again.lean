import Verif.Lemmas.AgainGlide
import Verif.Props.FoundWords

/-!
# C75: an extended lujvo taken apart and made again
-/

namespace Jvotci

open Spec

/-- **C75 (partial).** Take apart an extended lujvo, with the default shapes of rafsi. Then `get_lujvo` has a lujvo for its components to choose from that
scores no more: the word itself, if there is no r or n between rafsi further on in the word. Only if the word begins with CVV or CV'V and another rafsi without
a hyphen between them, that lujvo has a hyphen there, and this is what it may score more. So what `get_lujvo` returns for the components scores no more than
that; and it returns a lujvo if they are words or rafsi, not zi'evla without their last vowels. (`score_lujvo` leaves the y of extended lujvo out of its count
where they are pieces of their own. Where mz is permissible, no on-glide may come after y'.) -/
theorem C75_again_partial {s : Settings} {w : Str} {ps : List Str} (hlen : w.length < 10 ^ 89)
    (ha : analyseBrivla .linked s w = .ok (.extendedLujvo, ps)) (hexp : s.expRafsi = false)
    (hglide : s.allowMz = true → ∀ u g x v, ps = u ++ g :: x :: v → g ∈ [s%"y'", s%"'y'"] → ¬ Onglide x) :
    ∃ vs sc0 a h b, getVeljvo .linked s w = .ok vs ∧ scoreLujvo .linked s w = .ok sc0 ∧ reading w = a ++ b ∧
      (h = [] ∨ ((∃ x q rest, ps = x :: q :: rest ∧ VowelRafsi x ∧ ¬ Hyphen q) ∧
        h = if s.yHyphens = .forceY then s%"'y" else if b.head? = some 'r' then s%"n" else s%"r")) ∧
      (∃ w' sc, LujvoOf .linked s false vs w' sc ∧ sc ≤ sc0 + 100 * (ps.count s%"y" : Int) + (1000 * h.length + 100 * h.count 'y' : Nat) ∧
        (s%"r" ∉ ps.drop 2 → s%"n" ∉ ps.drop 2 → w' = a ++ h ++ b)) ∧
      (∀ w' sc ix, getLujvoWithAnalytics .linked s false (.list vs) = .ok (w', sc, ix) →
        sc ≤ sc0 + 100 * (ps.count s%"y" : Int) + (1000 * h.length + 100 * h.count 'y' : Nat)) ∧
      ((∀ v ∈ vs, WordOrRafsi s.allowMz v ∧ ('-' ∉ v → NoMzWord s v)) → ∃ w' sc ix, getLujvoWithAnalytics .linked s false (.list vs) = .ok (w', sc, ix)) := by
  obtain ⟨sc0, hsc⟩ := (C44_returns s w).2 ⟨_, _, ha, by simp⟩
  obtain ⟨vs, hv, -⟩ := bind_ok hsc
  obtain ⟨t', ps', ha', -, hs0⟩ := C44_score_lujvo hsc
  rw [ha] at ha'
  cases ha'
  have hb : (10 : Nat) ^ 92 = 1000 * 10 ^ 89 ∧ (10 : Nat) ^ 90 = 10 * 10 ^ 89 ∧ (10 : Nat) ^ 96 = 10000000 * 10 ^ 89 ∧ 100 < 10 ^ 89 := by decide
  obtain ⟨parts, hj, hp, hE, hS⟩ := C66_extended (by omega) hv ha
  have hrl := reading_length w
  have hcl : ∀ p ∈ parts, p.core.length + 2 < 10 ^ 90 := by
    intro p hp
    obtain ⟨u, t, rfl⟩ := List.append_of_mem hp
    have := core_length hj
    omega
  subst hp
  obtain ⟨p, q, v, rfl⟩ := two_cons hE.two
  have hP := hE.parts [] p (q :: v) rfl
  obtain ⟨zs, hy, a, h, b, hrep, hL, hraf, hsp, hun, hh1, hh2, hwt, hab, hsame⟩ := again_word hE hS hexp hcl (by
      intro p' hp hl ho
      obtain ⟨u, t, e⟩ := List.append_of_mem hp
      have hP := hE.parts u p' t e
      have hmz : s.allowMz = true := by
        cases hm : s.allowMz with
        | true => rfl
        | false => exact absurd ho (part_glide hP hexp hm (hcl p' hp) hl)
      have hu : u ≠ [] := by
        rintro rfl
        have := (hP.lead hl).1
        cases this
      obtain ⟨a, b, h, hbb⟩ := joinPieces_at (p := p') (t := t) hu
      obtain ⟨r, hr⟩ := joinPieces_head (p := p') (t := t)
      rw [← e, hr, hl] at h
      have hone : p'.pieces = [p'.core] := by
        apply part_single hP
        intro hkk
        have hk := hP.kind
        rw [hkk] at hk
        obtain ⟨y, hq, hqr⟩ := hk.reading.first
        obtain ⟨c, l, rfl, hc⟩ := rafsi_first hqr
        rw [← hk.core] at ho
        obtain ⟨y, l', hpl⟩ := List.exists_cons_of_ne_nil (part_pieces hP)
        rw [hpl] at ho hq
        cases hq
        exact onglide_not_consonant ho ((isConsonant_iff _).1 hc)
      rw [hone] at h
      exact hglide hmz a _ p'.core r h (by
        simp only [List.mem_cons, List.not_mem_nil, or_false] at hbb
        rcases hbb with rfl | rfl <;> simp) ho)
  have hy1 : 'y' ∈ reading w := by rw [← hj, joinParts]; simp
  have hhw : letterWeight h = (1000 * h.length + 100 * h.count 'y' : Nat) ∧ 1000 * h.length + 100 * h.count 'y' ≤ 2100 := by
    rcases hh2 with rfl | rfl
    · decide
    · split
      · decide
      · split <;> decide
  rw [hj] at hab
  have hcost : cost zs hy ≤ sc0 + 100 * ((joinPieces (p :: q :: v)).count s%"y" : Int) + (1000 * h.length + 100 * h.count 'y' : Nat) := by
    have h1 : ¬ TieShape w := fun h => by
      have := (tie_small h).2
      rw [this] at hy1
      exact tie_noY h hy1
    have h3 : (joinPieces (p :: q :: v)).filter (fun x => ¬ Hyphen x) = zs.map Slot.rafsi := by rw [hraf, joinPieces_filter]
    rw [h3, if_neg h1, List.map_map] at hs0
    rw [hhw.1] at hwt
    unfold letterWeight at hwt
    rw [hj] at hwt
    unfold cost
    have h4 : countChar (reading w) 'y' = (reading w).count 'y' := rfl
    rw [h4] at hs0
    rw [show (fun z : Slot => shapeScore z.rafsi) = shapeScore ∘ Slot.rafsi from rfl]
    split <;> omega
  have hword : s%"r" ∉ (joinPieces (p :: q :: v)).drop 2 → s%"n" ∉ (joinPieces (p :: q :: v)).drop 2 → wordOf zs hy = a ++ h ++ b := by
    intro h1 h2
    refine hsame (glue_zero ?_)
    have key : ∀ x ∈ p.pieces.drop 2 ++ ((q :: v).map YPart.pieces).flatten, x ∈ (joinPieces (p :: q :: v)).drop 2 := by
      intro x hx
      rw [joinPieces, List.append_assoc]
      rcases List.mem_append.1 hx with hx | hx
      · rw [List.drop_append]
        exact List.mem_append_left _ hx
      · obtain ⟨l, hl, hxl⟩ := List.mem_flatten.1 hx
        obtain ⟨r, hr, rfl⟩ := List.mem_map.1 hl
        have hm := joinPieces_mem hr hxl
        obtain ⟨y, l', hpl⟩ := List.exists_cons_of_ne_nil (part_pieces hP)
        rw [hpl]
        cases l' with
        | nil => exact hm
        | cons y' l' =>
          refine List.mem_append_right _ (List.mem_append_right _ hm)
    intro x hx
    exact ⟨fun e => h1 (e ▸ key x hx), fun e => h2 (e ▸ key x hx)⟩
  have hlj : LujvoOf .linked s false vs (wordOf zs hy) (cost zs hy) := ⟨zs, hy, hrep, hL, rfl, rfl⟩
  have hrd : vs.map reading = vs := by
    conv => rhs; rw [← List.map_id vs]
    exact List.map_congr_left fun v hv => spelled_reading (hsp v hv).1
  refine ⟨vs, sc0, a, h, b, hv, hsc, hab, ?_, ⟨_, _, hlj, hcost, hword⟩, ?_, ?_⟩
  · by_cases hb : ∃ x q' rest, joinPieces (p :: q :: v) = x :: q' :: rest ∧ VowelRafsi x ∧ ¬ Hyphen q'
    · exact hh2.imp id fun h => ⟨hb, h⟩
    · refine .inl (hh1 fun x g rest e hv => Classical.byContradiction fun hn => hb ?_)
      obtain ⟨r, hr⟩ := joinPieces_head (p := p) (t := q :: v)
      exact ⟨x, g, rest ++ r, by rw [hr, e]; rfl, hv, hn⟩
  · intro w' sc ix hget
    have := (C25_lowest_score (ws := vs) (show Words (.list vs) vs from rfl) hget).2
    rw [hrd] at this
    exact Int.le_trans (this _ _ hlj) hcost
  · intro hws
    have hwl : (wordOf zs hy).length < 10 ^ 90 := by
      have h1 : vowelCount (wordOf zs hy) ≤ (wordOf zs hy).length := List.length_filter_le _ _
      have h2 : (joinParts (p :: q :: v)).count 'y' ≤ (joinParts (p :: q :: v)).length := List.count_le_length
      rw [hhw.1] at hwt
      unfold letterWeight at hwt
      rw [hj] at hwt h2
      omega
    refine C53_words_partial (ws := vs) (w := wordOf zs hy) (sc := cost zs hy) rfl ?_ ?_ (by rw [hrd]; exact hlj) (by omega)
    · rw [hrd]
      exact fun v hv => ⟨(hsp v hv).1, (hsp v hv).2, (hws v hv).1⟩
    · rw [hrd]
      exact fun v hv => (hws v hv).2

/-- A word that meets the hypotheses. -/
example : analyseBrivla .linked {} s%"spageti'ykla'ydja" = .ok (.extendedLujvo, [s%"spageti", s%"'y", s%"kla", s%"'y", s%"dja"]) ∧
    getVeljvo .linked {} s%"spageti'ykla'ydja" = .ok [s%"spageti", s%"klama", s%"cidja"] ∧
    scoreLujvo .linked {} s%"spageti'ykla'ydja" = .ok 17055 ∧
    getLujvoWithAnalytics .linked {} false (.list [s%"spageti", s%"klama", s%"cidja"]) = .ok (s%"spageti'ykladja", 14955, [(0, 7), (9, 12), (12, 15)]) := by
  repeat' apply And.intro
  all_goals decide +kernel

/-- One with several rafsi before y; and one with an r that `get_lujvo` leaves out. -/
example : (analyseBrivla .linked {} s%"klabaudja'yspageti" = .ok (.extendedLujvo, [s%"kla", s%"bau", s%"dja", s%"'y", s%"spageti"]) ∧
      scoreLujvo .linked {} s%"klabaudja'yspageti" = .ok 17873 ∧
      getLujvoWithAnalytics .linked {} false (.list [s%"klama", s%"bangu", s%"cidja", s%"spageti"]) =
        .ok (s%"klabaudja'yspageti", 17873, [(0, 3), (3, 6), (6, 9), (11, 18)])) ∧
    (analyseBrivla .linked {} s%"spageti'ysairdja" = .ok (.extendedLujvo, [s%"spageti", s%"'y", s%"sai", s%"r", s%"dja"]) ∧
      scoreLujvo .linked {} s%"spageti'ysairdja" = .ok 15944 ∧
      getLujvoWithAnalytics .linked {} false (.list [s%"spageti", s%"sanmi", s%"cidja"]) = .ok (s%"spageti'ysaidja", 14944, [(0, 7), (9, 12), (12, 15)])) := by
  repeat' apply And.intro
  all_goals decide +kernel

/-- **C75**: not true in general. After CVV or CV'V at the beginning and a CCV, a word with y further on needs no r, but `get_lujvo` writes one, or another
rafsi: the word taken apart is the better one. And a zi'evla without its last vowel may make the best word fall apart, so that there is none. -/
theorem C75_false :
    (analyseBrivla .linked {} s%"nautsi'yva'arge" = .ok (.extendedLujvo, [s%"nau", s%"tsi", s%"'y", s%"va'arge"]) ∧
      getVeljvo .linked {} s%"nautsi'yva'arge" = .ok [s%"nanmu", s%"tsiju", s%"va'arge"] ∧
      scoreLujvo .linked {} s%"nautsi'yva'arge" = .ok 14944 ∧
      getLujvoWithAnalytics .linked {} false (.list [s%"nanmu", s%"tsiju", s%"va'arge"]) = .ok (s%"naurtsi'yva'arge", 15944, [(0, 3), (4, 7), (9, 16)])) ∧
    (analyseBrivla .linked {} s%"skordisyva'arga" = .ok (.extendedLujvo, [s%"skordis", s%"y", s%"va'arga"]) ∧
      getVeljvo .linked {} s%"skordisyva'arga" = .ok [s%"skordis-", s%"va'arga"] ∧
      getLujvoWithAnalytics .linked {} false (.list [s%"skordis-", s%"va'arga"]) = .error .noLujvo) := by
  repeat' apply And.intro
  all_goals decide +kernel

end Jvotci
