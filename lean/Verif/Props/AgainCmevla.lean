import Verif.Lemmas.AgainCmevla
import Verif.Props.FoundWords

/-!
# C76: an extended cmevla taken apart and made again
-/

namespace Jvotci

open Spec

/-- **C76 (partial).** Take apart a cmevla that does not consist of rafsi alone, with the default shapes of rafsi. Then `get_lujvo`, asked for a cmevla, has one
for its components to choose from that scores no more: the word itself, if there is no r or n between rafsi and the word does not begin with CVV or CV'V and 'y.
So what `get_lujvo` returns scores no more; and it returns a cmevla, or it stops with an IndexError at a component that is a zi'evla without its last vowel.
Missing are, under STANDARD, words that begin with CVV or CV'V, 'y and a zi'evla. (`score_lujvo` leaves the y out of its count where it is a piece of its own.
Where mz is permissible, no on-glide may come after y'.) -/
theorem C76_again_partial {s : Settings} {w : Str} {ps : List Str} (hlen : w.length < 10 ^ 89)
    (ha : analyseBrivla .linked s w = .ok (.cmevla, ps)) (hx : ¬ CmevlaPieces s ps) (hexp : s.expRafsi = false)
    (hglide : s.allowMz = true → ∀ u g x v, ps = u ++ g :: x :: v → g ∈ [s%"y'", s%"'y'"] → ¬ Onglide x)
    (hfirst : s.yHyphens = .standard → ∀ x q v, ps = x :: s%"'y" :: q :: v → VowelRafsi x → Rafsi s.allowMz q) :
    ∃ vs sc0, getVeljvo .linked s w = .ok vs ∧ scoreLujvo .linked s w = .ok sc0 ∧
      (∃ w' sc, LujvoOf .linked s true vs w' sc ∧ sc ≤ sc0 + 100 * (ps.count s%"y" : Int) ∧
        (s%"r" ∉ ps → s%"n" ∉ ps → (s.yHyphens = .standard → ∀ x v, ps = x :: s%"'y" :: v → ¬ VowelRafsi x) → w' = reading w)) ∧
      (∀ w' sc ix, getLujvoWithAnalytics .linked s true (.list vs) = .ok (w', sc, ix) → sc ≤ sc0 + 100 * (ps.count s%"y" : Int)) ∧
      ((∃ w' sc ix, getLujvoWithAnalytics .linked s true (.list vs) = .ok (w', sc, ix)) ∨
        (s.yHyphens ≠ .forceY ∧ getLujvoWithAnalytics .linked s true (.list vs) = .error .index ∧
          ∃ v ∈ vs, ∃ x j, v = x ++ List.replicate (j + 1) '-' ∧ LateR x)) := by
  obtain ⟨sc0, hsc⟩ := (C44_returns s w).2 ⟨_, _, ha, by simp⟩
  obtain ⟨vs, hv, -⟩ := bind_ok hsc
  obtain ⟨t', ps', ha', -, hs0⟩ := C44_score_lujvo hsc
  rw [ha] at ha'
  cases ha'
  have hb : (10 : Nat) ^ 92 = 1000 * 10 ^ 89 ∧ (10 : Nat) ^ 90 = 10 * 10 ^ 89 ∧ (10 : Nat) ^ 96 = 10000000 * 10 ^ 89 ∧ 100 < 10 ^ 89 := by decide
  obtain ⟨parts, hj, hp, hE, hS⟩ := (C66_cmevla (by omega) hv ha).resolve_left (fun h => hx h.1)
  have hrl := reading_length w
  have hcl : ∀ p ∈ parts, p.core.length + 2 < 10 ^ 90 := by
    intro p hp
    obtain ⟨u, t, rfl⟩ := List.append_of_mem hp
    have := core_length hj
    omega
  subst hp
  obtain ⟨p, q, v, rfl⟩ := two_cons hE.two
  have hpieces : p.pieces = [p.core] → p.trail = true → q.lead = false →
      ∃ r, joinPieces (p :: q :: v) = p.core :: s%"'y" :: (q.pieces ++ r) := by
    intro h1 h2 h3
    obtain ⟨r, hr⟩ := joinPieces_head (p := q) (t := v)
    exact ⟨r, by rw [joinPieces, h1, h2, h3, hr]; rfl⟩
  obtain ⟨zs, hy, hrep, hL, hraf, hsp, hwt, hsame⟩ := again_cmevla hE hS hexp hcl (by
      intro p' hp hl ho
      obtain ⟨u, t, e⟩ := List.append_of_mem hp
      have hP := hE.parts u p' t e
      have hmz : s.allowMz = true := by
        cases hm : s.allowMz with
        | true => rfl
        | false => exact absurd ho (part_glide hP hexp hm (hcl p' hp) hl)
      have hu : u ≠ [] := by
        rintro rfl
        have := (hP.lead hl).1
        cases this
      obtain ⟨a, b, h, hbb⟩ := joinPieces_at (p := p') (t := t) hu
      obtain ⟨r, hr⟩ := joinPieces_head (p := p') (t := t)
      rw [← e, hr, hl] at h
      have hone : p'.pieces = [p'.core] := by
        apply part_single hP
        intro hkk
        have hk := hP.kind
        rw [hkk] at hk
        obtain ⟨y, hq, hqr⟩ := hk.reading.first
        obtain ⟨c, l, rfl, hc⟩ := rafsi_first hqr
        rw [← hk.core] at ho
        obtain ⟨y, l', hpl⟩ := List.exists_cons_of_ne_nil (part_pieces hP)
        rw [hpl] at ho hq
        cases hq
        exact onglide_not_consonant ho ((isConsonant_iff _).1 hc)
      rw [hone] at h
      exact hglide hmz a _ p'.core r h (by
        simp only [List.mem_cons, List.not_mem_nil, or_false] at hbb
        rcases hbb with rfl | rfl <;> simp) ho) (by
      intro h1 h2 h3 h4 h5
      obtain ⟨r, hr⟩ := hpieces h1 h3 h5
      obtain ⟨y, l', hpl⟩ := List.exists_cons_of_ne_nil (part_pieces (hE.parts [p] q v rfl))
      rw [hpl] at hr ⊢
      exact ⟨y, rfl, hfirst h4 _ _ _ hr h2⟩)
  have hy1 : 'y' ∈ reading w := by rw [← hj, joinParts]; simp
  have hcost : cost zs hy ≤ sc0 + 100 * ((joinPieces (p :: q :: v)).count s%"y" : Int) := by
    have h1 : ¬ TieShape w := fun h => by
      have := (tie_small h).2
      rw [this] at hy1
      exact tie_noY h hy1
    have h3 : (joinPieces (p :: q :: v)).filter (fun x => ¬ Hyphen x) = zs.map Slot.rafsi := by rw [hraf, joinPieces_filter]
    rw [h3, if_neg h1, List.map_map] at hs0
    unfold letterWeight at hwt
    rw [hj] at hwt
    unfold cost
    have h4 : countChar (reading w) 'y' = (reading w).count 'y' := rfl
    rw [h4] at hs0
    rw [show (fun z : Slot => shapeScore z.rafsi) = shapeScore ∘ Slot.rafsi from rfl]
    split <;> omega
  have hlj : LujvoOf .linked s true vs (wordOf zs hy) (cost zs hy) := ⟨zs, hy, hrep, hL, rfl, rfl⟩
  have hrd : vs.map reading = vs := by
    conv => rhs; rw [← List.map_id vs]
    exact List.map_congr_left fun v hv => spelled_reading (hsp v hv).1
  refine ⟨vs, sc0, hv, hsc, ⟨_, _, hlj, hcost, ?_⟩, ?_, ?_⟩
  · intro h1 h2 h3
    rw [← hj]
    refine hsame (glue_zero ?_) ?_
    · intro x hx
      obtain ⟨l, hl, hxl⟩ := List.mem_flatten.1 hx
      obtain ⟨r, hr, rfl⟩ := List.mem_map.1 hl
      have hm := joinPieces_mem hr hxl
      exact ⟨fun e => h1 (e ▸ hm), fun e => h2 (e ▸ hm)⟩
    · intro h4 h5 h6 h7
      cases hq : q.lead with
      | true => rfl
      | false =>
        obtain ⟨r, hr⟩ := hpieces h4 h6 hq
        exact absurd h5 (h3 h7 _ _ hr)
  · intro w' sc ix hget
    have := (C25_lowest_score (ws := vs) (show Words (.list vs) vs from rfl) hget).2
    rw [hrd] at this
    exact Int.le_trans (this _ _ hlj) hcost
  · have hwl : (wordOf zs hy).length < 10 ^ 96 := by
      have h1 : vowelCount (wordOf zs hy) ≤ (wordOf zs hy).length := List.length_filter_le _ _
      have h2 : (joinParts (p :: q :: v)).count 'y' ≤ (joinParts (p :: q :: v)).length := List.count_le_length
      unfold letterWeight at hwt
      rw [hj] at hwt h2
      omega
    have := C53_found_partial (t := .list vs) (ws := vs) (w := wordOf zs hy) (sc := cost zs hy) rfl (by
      rw [hrd]
      exact fun v hv => (hsp v hv).1) (by rw [hrd]; exact hlj) hwl
    rw [hrd] at this
    rcases this with h | ⟨h, -⟩ | h
    · exact .inl h
    · cases h
    · exact .inr h

/-- Words that meet the hypotheses. The first is made again as it is; `get_lujvo` leaves out an r of the second, and 'y of the third; and at the fourth it stops. -/
example : (analyseBrivla .linked {} s%"djarspageti'ykladjar" = .ok (.cmevla, [s%"djarspageti", s%"'y", s%"kla", s%"djar"]) ∧
      scoreLujvo .linked {} s%"djarspageti'ykladjar" = .ok 19984 ∧
      getVeljvo .linked {} s%"djarspageti'ykladjar" = .ok [s%"djarspageti", s%"klama", s%"djar-"] ∧
      getLujvoWithAnalytics .linked {} true (.list [s%"djarspageti", s%"klama", s%"djar-"]) = .ok (s%"djarspageti'ykladjar", 19984, [(0, 11), (13, 16), (16, 20)])) ∧
    (analyseBrivla .linked {} s%"sairdja'yspageit" = .ok (.cmevla, [s%"sai", s%"r", s%"dja", s%"'y", s%"spageit"]) ∧
      scoreLujvo .linked {} s%"sairdja'yspageit" = .ok 15944 ∧
      getVeljvo .linked {} s%"sairdja'yspageit" = .ok [s%"sanmi", s%"cidja", s%"spageit-"] ∧
      getLujvoWithAnalytics .linked {} true (.list [s%"sanmi", s%"cidja", s%"spageit-"]) = .ok (s%"saidja'yspageit", 14944, [(0, 3), (3, 6), (8, 15)])) ∧
    (analyseBrivla .linked {} s%"sai'ydjar" = .ok (.cmevla, [s%"sai", s%"'y", s%"djar"]) ∧
      getVeljvo .linked {} s%"sai'ydjar" = .ok [s%"sanmi", s%"djar-"] ∧
      getLujvoWithAnalytics .linked {} true (.list [s%"sanmi", s%"djar-"]) = .ok (s%"saidjar", 6876, [(0, 3), (3, 7)])) ∧
    (analyseBrivla .linked {} s%"latyspageir" = .ok (.cmevla, [s%"lat", s%"y", s%"spageir"]) ∧
      getVeljvo .linked {} s%"latyspageir" = .ok [s%"mlatu", s%"spageir-"] ∧
      getLujvoWithAnalytics .linked {} true (.list [s%"mlatu", s%"spageir-"]) = .error .index) := by
  repeat' apply And.intro
  all_goals decide +kernel

example : ¬ CmevlaPieces {} [s%"djarspageti", s%"'y", s%"kla", s%"djar"] ∧ ¬ CmevlaPieces {} [s%"lat", s%"y", s%"spageir"] := by
  refine ⟨fun h => h.apostropheY (by simp), fun h => ?_⟩
  obtain ⟨x, hx, hr⟩ := h.reading.last
  cases hx
  exact absurd (rafsi_length hr).2 (by decide)

/-- **C76**: not true in general. A cmevla may begin with CVV or CV'V, 'y and a zi'evla, but `get_lujvo` does not make such words under STANDARD: for one, it makes
a longer word, and none at all for another. -/
theorem C76_false :
    (analyseBrivla .linked {} s%"va'a'ydjarspaget" = .ok (.cmevla, [s%"va'a", s%"'y", s%"djarspaget"]) ∧
      getVeljvo .linked {} s%"va'a'ydjarspaget" = .ok [s%"va'arga", s%"djarspaget-"] ∧
      scoreLujvo .linked {} s%"va'a'ydjarspaget" = .ok 16035 ∧
      getLujvoWithAnalytics .linked {} true (.list [s%"va'arga", s%"djarspaget-"]) = .ok (s%"va'arga'ydjarspaget", 19094, [(0, 7), (9, 19)])) ∧
    (analyseBrivla .linked {} s%"goi'ydjarspaget" = .ok (.cmevla, [s%"goi", s%"'y", s%"djarspaget"]) ∧
      getVeljvo .linked {} s%"goi'ydjarspaget" = .ok [s%"-goi-", s%"djarspaget-"] ∧
      getLujvoWithAnalytics .linked {} true (.list [s%"-goi-", s%"djarspaget-"]) = .error .noLujvo) := by
  repeat' apply And.intro
  all_goals decide +kernel

end Jvotci
