import Verif.Props.RsRound
import Verif.Lemmas.RsCme

/-!
# Cmevla in the Rust crate (C94)
-/

namespace Jvotci

open Spec

/-- **C94 (analysis).** A word (without stray full stop, of fewer than 180000 letters) that is read as the pieces of a cmevla, in the sense of C42,
joined, is a CMEVLA with these pieces for both versions. -/
theorem C94_cmevla (O : RsOther) (n : Nat) (s : Settings) (w : Str) (ps : List Str) (hd : ¬ StrayDot w) (hw : reading w = ps.flatten)
    (h : CmevlaPieces s ps) (hlen : (reading w).length < 180000) :
    analyseBrivla .linked s w = .ok (.cmevla, ps) ∧ rsAnalyseBrivla O (n + 2) s w = .ok (.cmevla, ps) := by
  have hbig : (180000 : Nat) < 10 ^ 96 := by decide
  have h6 := pieces_long h.reading h.two
  obtain ⟨c, hc, hv⟩ := h.consonant
  have hcc := (isConsonant_iff c).2 hv
  refine ⟨C42_every_cmevla hw h (by rw [← hw]; omega), ?_⟩
  have hk : jvokaha (program .linked) s.yHyphens s.consonants s.glides s.allowMz (reading w) = .ok ps := by
    rw [hw] at hlen ⊢
    obtain ⟨l, m, rfl, hM, hA, hE, hF, hd⟩ := cmevlaPieces_made (s := kahaSettings s.yHyphens s.consonants s.glides s.allowMz) (cmevlaPieces_settings (s := s) rfl rfl h)
    rw [flat_spell] at hlen ⊢
    exact jvokaha_accepts hM hA hE hF hd (cost_bound hE (by omega)) (by simp)
  have hg : isGismu s.allowMz (reading w ++ s%"a") = false := by
    cases hg : isGismu s.allowMz (reading w ++ s%"a") with
    | false => rfl
    | true =>
      have := gismu_length hg
      rw [hw] at this
      simp only [List.length_append] at this
      omega
  have hne : (reading w).isEmpty = false := by
    cases hr : reading w with
    | nil => rw [hw] at hr; rw [hr] at h6; simp at h6
    | cons => rfl
  rw [← hw] at hc
  unfold rsAnalyseBrivla
  rw [(rsNormalise_iff w).2 hd]
  simp only [hne, rsBack_of hc, rsIsConsonant_eq, rsIsVowel_eq, rsIsGismu_eq, hcc, hg, Bool.false_eq_true, if_false, Bool.not_true, Bool.and_false, Bool.false_and]
  rw [kept_jvokaha hk hlen]
  simp

/-- **C94 (words without y).** If the Python version says CMEVLA of a word without y, so does the Rust crate, with the same pieces. -/
theorem C94_without_y (O : RsOther) (n : Nat) (s : Settings) (w : Str) (ps : List Str) (hd : ¬ StrayDot w) (hy : 'y' ∉ reading w)
    (hlen : (reading w).length < 180000) (h : analyseBrivla .linked s w = .ok (.cmevla, ps)) :
    rsAnalyseBrivla O (n + 2) s w = .ok (.cmevla, ps) := by
  obtain ⟨e, h1⟩ := C42_only_cmevla h hy
  exact (C94_cmevla O n s w ps hd e.symm h1 hlen).2

/-- **C94 (get_veljvo).** Of such a word `get_veljvo` gives the same list in both versions. -/
theorem C94_get_veljvo (A : RsRest) (n k : Nat) (Y : Settings → Bool → Str → Except RsErr (RsKind × List Str)) (s : Settings) (w : Str) (ps : List Str)
    (hd : ¬ StrayDot w) (hw : reading w = ps.flatten) (h : CmevlaPieces s ps) (hlen : (reading w).length < 180000) (hk : 6 ≤ k) :
    ∃ vs, getVeljvo .linked s w = .ok vs ∧ rsGetVeljvo (rsSelf A (n + 2) Y k) (n + 2) s w = .ok vs := by
  obtain ⟨h1, h2⟩ := C94_cmevla (rsSelf A (n + 2) Y k) n s w ps hd hw h hlen
  have hps := reading_pieces h.reading
  have hne : ∀ p ∈ ps, p ≠ [] := by
    rintro p hp rfl
    rcases hps _ hp with k | k
    · revert k; decide
    · obtain ⟨-, ⟨l, hl, -⟩, -⟩ := rafsi_word k
      cases hl
  refine ⟨rsSelrafsiFrom (rsSelf A (n + 2) Y k) (n + 2) s ps 0 ps, ?_, ?_⟩
  · unfold getVeljvo
    rw [h1, ok_bind]
    dsimp only
    rw [if_neg (by simp)]
    exact rs_selrafsi_all hk hne 0 ps (by simp) hps
  · unfold rsGetVeljvo
    rw [h2]
    dsimp only
    rw [if_pos (.inr (.inr rfl))]

theorem rs_tiebreak_cmevla {s : Settings} {ps : List Str} (h : CmevlaPieces s ps) : rsTiebreak ps.flatten = tiebreak ps.flatten := by
  unfold rsTiebreak tiebreak
  simp only [rsRafsiTarmi_safe (.inl rfl)]
  by_cases hc : ¬ rafsiTarmi (slice ps.flatten 0 3) = .cvv
  · rw [if_neg (fun k => hc k.1), if_neg (fun k => hc k.1)]
  replace hc := Classical.not_not.1 hc
  rw [(rsRafsiTarmi_iff _).2]
  intro ho
  have hr := h.reading
  obtain ⟨p, hp, hr1⟩ := hr.first
  have h2 := h.two
  obtain ⟨q, v, rfl⟩ := two_pieces hp h2
  obtain ⟨a, b, c, e, ha, hb, hcv⟩ := tarmi_cvv.1 hc
  have h6 := pieces_long hr h2
  obtain ⟨u, e⟩ : ∃ u, (p :: q :: v).flatten = a :: b :: c :: u := by
    generalize (p :: q :: v).flatten = w at e h6
    match w, e, h6 with
    | x :: y :: z :: u, e, _ => simp [slice] at e; exact ⟨u, by simp [e]⟩
  obtain rfl : p = [a, b, c] := by
    rw [List.flatten_cons] at e
    exact rafsi_cvv_of hr1 e ((isVowel_iff b).1 hb) ((isVowel_iff c).1 hcv)
  have ed : ([a, b, c] :: q :: v).flatten.drop 3 = (q :: v).flatten := by simp
  rw [ed] at ho
  obtain ⟨l, hl, hlv⟩ := h.consonant
  obtain ⟨z, hz, hzr⟩ := hr.last
  have hl' : (q :: v).flatten.getLast? = some l := by
    have h3 : 3 ≤ (q :: v).flatten.length := by simp at h6 ⊢; omega
    rw [List.flatten_cons, List.getLast?_append] at hl
    cases hg : (q :: v).flatten.getLast? with
    | none => simp only [List.getLast?_eq_none_iff] at hg; rw [hg] at h3; simp at h3
    | some d => rw [hg] at hl; simpa using hl
  obtain ⟨-, -, -, h4⟩ := link_adj (links_cons.1 hr.links).1
  have hq1 : 1 ≤ q.length := List.length_pos_iff.2 h4
  rw [List.getLast?_cons_cons] at hz
  have four : ∀ {x y z' t : Char}, (q :: v).flatten = [x, y, z', t] → (OddShape [x, y, z', t] → False) ∨ ∃ rest, z = [y, z', t] ∧ rest = q := by
    intro x y z' t e
    obtain ⟨u, hu⟩ := List.getLast?_eq_some_iff.1 hz
    have e' := e
    rw [hu] at e'
    simp only [List.flatten_append, List.flatten_cons, List.flatten_nil, List.append_nil] at e'
    have hzl := (rafsi_length hzr).1
    cases u with
    | nil =>
      left
      intro hodd
      rw [List.flatten_nil, List.nil_append] at e'
      rw [e'] at hzr
      exact rafsi_not_odd hzr hodd
    | cons q' u =>
      right
      simp only [List.cons_append, List.cons.injEq] at hu
      obtain ⟨rfl, rfl⟩ := hu
      have hlen := congrArg List.length e'
      simp only [List.flatten_cons, List.length_append, List.length_cons, List.length_nil] at hlen
      have hu0 : u.flatten = [] := List.eq_nil_of_length_eq_zero (by omega)
      have hq0 : q.length = 1 := by omega
      match q, hq0 with
      | [d], _ =>
        rw [List.flatten_cons, hu0] at e'
        simp at e'
        exact ⟨_, e'.2, rfl⟩
  have hzw := rafsi_word hzr
  generalize hw : (q :: v).flatten = w at ho hl'
  cases ho with
  | hyphen => simp at hl'; rw [← hl'] at hlv; revert hlv; decide
  | three k1 k2 k3 k4 => simp at hl'; rw [← hl'] at hlv; exact not_vowel_consonant k4 hlv
  | cvcc k1 k2 k3 k4 =>
    rcases four hw with h | ⟨-, h, -⟩
    · exact h (.cvcc k1 k2 k3 k4)
    · exact not_vowel_consonant k2 (rafsi_head? hzr (by rw [h]; rfl))
  | ccvc k1 k2 k3 k4 k5 k6 =>
    rcases four hw with h | ⟨-, h, -⟩
    · exact h (.ccvc k1 k2 k3 k4 k5 k6)
    · have hd := rafsi_head? hzr (by rw [h]; rfl)
      simp at hl'
      rw [← hl'] at hlv
      exact k6 ⟨hd, hlv⟩

/-- **C94 (score_lujvo).** Of such a word, written in small letters without commas and h, the Rust crate's score is the Python version's and 100
more for each hyphen of one letter. -/
theorem C94_score (O : RsOther) (n : Nat) (s : Settings) (w : Str) (ps : List Str) (hd : ¬ StrayDot w) (hw : reading w = w) (e : ps.flatten = w)
    (h : CmevlaPieces s ps) (hlen : w.length < 180000) :
    ∃ sc, scoreLujvo .linked s w = .ok sc ∧ rsScoreLujvo O (n + 2) s w = .ok (sc + 100 * (ps.countP (fun p => decide (OneLetterHyphen p)) : Int)) := by
  obtain ⟨h1, h2⟩ := C94_cmevla O n s w ps hd (by rw [hw, e]) h (by rw [hw]; exact hlen)
  obtain ⟨vs, hvs⟩ := (C30_returns s w).2 ⟨_, _, h1, .inr (.inr rfl)⟩
  refine ⟨(ps.map pieceScore).sum - tiebreak w, ?_, ?_⟩
  · unfold scoreLujvo
    rw [hvs, ok_bind, h1, ok_bind]
  · unfold rsScoreLujvo rsGetVeljvo
    rw [h2]
    dsimp only
    rw [if_pos (.inr (.inr rfl))]
    dsimp only
    have := rs_tiebreak_cmevla h
    rw [e] at this
    rw [this, rs_scores (mz := s.allowMz) fun p hp => (reading_pieces h.reading p hp).symm]
    congr 1
    omega

/-- The word made of a tanru of gismu and cmavo: its pieces are those of a cmevla. -/
theorem plain_cmevla {s : Settings} {t : Tanru} {ws : List Str} {w : Str} {sc : Int} {ix : List (Nat × Nat)}
    (hws : Words t ws) (hv : ∀ v ∈ ws, Gismu s.allowMz (reading v) ∨ CmavoForm (reading v))
    (h : getLujvoWithAnalytics .linked s true t = .ok (w, sc, ix)) :
    ∃ ps, CmevlaPieces s ps ∧ ps.flatten = w ∧ reading w = w ∧ getRafsiIndices ps = ix := by
  rw [hws.list, getLujvoWithAnalytics_program] at h
  obtain ⟨vs, hvs, h⟩ := bind_ok h
  cases mapM_normalise_ok hvs
  have hp : ∀ v ∈ ws.map reading, Plain s.allowMz v := by
    intro v hv'
    obtain ⟨w, hw, rfl⟩ := List.mem_map.1 hv'
    exact hv w hw
  obtain ⟨zs, hy, hrep, hL, hw, hsc, hlay⟩ := found_slots h
  have hr : ∀ z ∈ zs, Rafsi s.allowMz z.rafsi ∧ Diph z.rafsi := fun z hz => by
    obtain ⟨v, hvm, hu⟩ := represents_mem hrep z hz
    exact plain_rafsi (hp v hvm) hu
  have hlong := plain_short hp hrep hL (fun w' sc' hw' => by
      rw [← hsc]
      exact (getLujvoFromList_best.1 _ h).2 _ _ hw')
  obtain ⟨l, hM, hA, e1, e2, e3⟩ := found_made (r := (w, sc, ix)) h hrep hL hw hsc hlay (fun z hz => (hr z hz).1) hlong
  have hd : ∀ p ∈ l, Diph p.1 := by
    intro p hp
    have : p.1 ∈ zs.map Slot.rafsi := by rw [← e2]; exact List.mem_map_of_mem hp
    obtain ⟨z, hz, e⟩ := List.mem_map.1 this
    rw [← e]
    exact (hr z hz).2
  refine ⟨flat l, ?_, by rw [flat_spell]; exact e1.symm, ?_, ?_⟩
  · exact made_cmevlaPieces hM hA (Ext.refl _ l) hd (by
      intro x h x' h' l' m' e1 e2 e3
      rw [e1] at e2
      simp only [List.cons.injEq, Prod.mk.injEq] at e2
      exact absurd e2.1.2.symm e3)
  · have e1 : w = spell l := e1
    rw [e1]
    exact reading_made hM
  · have e3 : places 0 l = ix := e3
    rw [← e3]
    exact indices_places (mz := s.allowMz) (fun p hp => ⟨hM.rafsi p hp, canon_glue hM.canon p hp⟩)

theorem made_size {A : RsRest} {s : Settings} {g : Bool} {vs : List Str} {r : Str × Int × List (Nat × Nat)} (hc : ∀ v ∈ vs, RsComponent A s v)
    (h2 : 2 ≤ vs.length) (hmax : vs.length < 60000) (h : getLujvoFromList (program .linked) s g vs = .ok r) : RsWord r.1 vs.length := by
  obtain ⟨ll, best, l1, l2, l3, l4, -⟩ := rs_list g hc h2 (by omega)
  unfold getLujvoFromList at h
  rw [l1, ok_bind, l2, ok_bind] at h
  cases hp : pickBest g best with
  | none => rw [hp] at h; cases h
  | some r' =>
    have : r' = r := by
      rw [hp] at h
      cases g
      · simp only [Bool.not_false, if_true] at h
        obtain ⟨b, -, h⟩ := bind_ok h
        cases b
        · cases h; rfl
        · cases h
      · simp only [Bool.not_true, Bool.false_eq_true, if_false] at h
        cases h; rfl
    subst this
    obtain ⟨l, hm, hl⟩ := pickBest_mem hp
    obtain ⟨rs, c, hpk, hbt, l', hl', e⟩ := searchStages_sound l2 _ hm
    simp only [Prod.mk.injEq] at e
    obtain ⟨⟨-, -, -⟩, rfl⟩ := e
    have hlen := picks_length hpk
    have hw := built_word hbt fun r hr => by
      obtain ⟨l, hl, hrl⟩ := picks_mem hpk r hr
      exact l4 l hl r hrl
    rw [← hlen, l3] at hw
    exact hw

/-- What the Rust crate makes of a tanru of gismu and cmavo when asked for a cmevla, the Python version makes too. -/
theorem rs_cmevla_py {A : RsRest} {n k : Nat} {Y : Settings → Bool → Str → Except RsErr (RsKind × List Str)} {rs : RsSettings} {s : Settings}
    (hs : s = { yHyphens := rs.yHyphens, consonants := rs.consonants, expRafsi := rs.expRafsi, glides := rs.glides, allowMz := rs.allowMz })
    {t : Str} {ws : List Str} (hws : Spaced t ws) (ht : ∀ c ∈ t, c.toNat ∉ [0x1C, 0x1D, 0x1E, 0x1F]) (hd : ∀ w ∈ ws, ¬ StrayDot w)
    (hc : ∀ w ∈ ws, OwnComponent s (reading w)) (hlen : ∀ w ∈ ws, (reading w).length < 180000) (hk : ∀ w ∈ ws, (reading w).length < k)
    (h2 : 2 ≤ ws.length) (hmax : ws.length < 20000) (hg : rs.generateCmevla = true) {w : Str} {sc : Int} {ix : List (Nat × Nat)}
    (h : rsGetLujvoWithAnalytics (rsOwn A (n + 2) Y k) (n + 2) rs t = .ok (w, sc, ix)) :
    getLujvoWithAnalytics .linked s true (.str t) = .ok (w, sc, ix) ∧ getLujvo .linked s true (.str t) = .ok w ∧ ¬ StrayDot w ∧ w.length < 180000 := by
  have hpy : getLujvoWithAnalytics .linked s true (.str t) = .ok (w, sc, ix) ∧ getLujvo .linked s true (.str t) = .ok w := by
    rcases C91_get_lujvo A n k Y rs s hs t ws hws ht hd hc hlen hk h2 (by omega) with ⟨r, e1, e2, e3, -⟩ | ⟨-, -, e3, -⟩
    · rw [e3] at h
      cases h
      rw [hg] at e1 e2
      exact ⟨e1, e2⟩
    · rw [e3] at h; cases h
  have h3 : processTanru (.str t) = .ok (ws.map reading) := by
    unfold processTanru
    dsimp only
    rw [splitWs_spaced hws]
    exact mapM_reading (spaced_ne hws)
  have h4 := hpy.1
  rw [getLujvoWithAnalytics_program, h3, ok_bind] at h4
  have h5 := made_size (A := rsOwn A (n + 2) Y k) (by
    intro v hv
    obtain ⟨w, hw, rfl⟩ := List.mem_map.1 hv
    exact own_component (hc w hw) (hlen w hw) (hk w hw)) (by simpa using h2) (by simp; omega) h4
  refine ⟨hpy.1, hpy.2, ?_, ?_⟩
  · have hdot : ∀ c ∈ w, c ≠ '.' := by
      rintro c hc rfl
      rcases h5.letters _ hc with h | h | h | h <;> revert h <;> decide
    clear h5 h4 hpy h
    intro h
    cases h with
    | two => exact hdot '.' (by simp) rfl
    | last u h => exact hdot '.' (by simp) rfl
  · have := h5.size
    simp at this
    omega

/-- **C94 (read back).** What `get_lujvo_with_analytics` of the Rust crate makes of a tanru of gismu and of words without consonant cluster that end
in a vowel, when it is asked for a cmevla, `analyze_brivla` of the Rust crate takes for a CMEVLA, and divides where it was put together. -/
theorem C94_read_back (A : RsRest) (n k : Nat) (Y : Settings → Bool → Str → Except RsErr (RsKind × List Str)) (rs : RsSettings) (s : Settings)
    (hs : s = { yHyphens := rs.yHyphens, consonants := rs.consonants, expRafsi := rs.expRafsi, glides := rs.glides, allowMz := rs.allowMz })
    (t : Str) (ws : List Str) (hws : Spaced t ws) (ht : ∀ c ∈ t, c.toNat ∉ [0x1C, 0x1D, 0x1E, 0x1F]) (hd : ∀ w ∈ ws, ¬ StrayDot w)
    (hc : ∀ w ∈ ws, Gismu s.allowMz (reading w) ∨ CmavoForm (reading w) ∧ ∃ l, (reading w).getLast? = some l ∧ Vowel l)
    (hlen : ∀ w ∈ ws, (reading w).length < 180000) (hk : ∀ w ∈ ws, (reading w).length < k)
    (h2 : 2 ≤ ws.length) (hmax : ws.length < 20000) (hg : rs.generateCmevla = true) (w : Str) (sc : Int) (ix : List (Nat × Nat))
    (h : rsGetLujvoWithAnalytics (rsOwn A (n + 2) Y k) (n + 2) rs t = .ok (w, sc, ix)) :
    ∃ ps, rsAnalyseBrivla (rsSelf A (n + 2) Y k) (n + 2) s w = .ok (.cmevla, ps) ∧ rsGetRafsiIndices ps = ix := by
  obtain ⟨p1, -, p3, p5⟩ := rs_cmevla_py hs hws ht hd (fun w hw => own_of_form (hc w hw)) hlen hk h2 hmax hg h
  obtain ⟨ps, q1, q2, q3, q4⟩ := plain_cmevla (t := .str t) (ws := ws) hws (fun v hv => (hc v hv).imp id And.left) p1
  refine ⟨ps, (C94_cmevla (rsSelf A (n + 2) Y k) n s w ps p3 (by rw [q3, q2]) q1 (by rw [q3]; exact p5)).2, ?_⟩
  rw [(C87_lookup [] ps).2]
  exact q4

/-- **C94 (round trip).** If the words of the tanru are listed (and none of them shares its first four letters with another, C43), `get_veljvo` of
the Rust crate gives the tanru back from the cmevla that `get_lujvo` of the Rust crate made of it. `score_lujvo` of the crate gives the score that was
returned with it, except for 100 for every r or n hyphen and for the tie-break. -/
theorem C94_round_trip (A : RsRest) (n k : Nat) (Y : Settings → Bool → Str → Except RsErr (RsKind × List Str)) (rs : RsSettings) (s : Settings)
    (hs : s = { yHyphens := rs.yHyphens, consonants := rs.consonants, expRafsi := rs.expRafsi, glides := rs.glides, allowMz := rs.allowMz })
    (t : Str) (ws : List Str) (hws : Spaced t ws) (ht : ∀ c ∈ t, c.toNat ∉ [0x1C, 0x1D, 0x1E, 0x1F]) (hd : ∀ w ∈ ws, ¬ StrayDot w)
    (hc : ∀ w ∈ ws, Known s.allowMz (reading w)) (hlen : ∀ w ∈ ws, (reading w).length < 180000) (hk : ∀ w ∈ ws, (reading w).length < k) (hk6 : 6 ≤ k)
    (h2 : 2 ≤ ws.length) (hmax : ws.length < 20000) (hg : rs.generateCmevla = true) (w : Str) (sc : Int) (ix : List (Nat × Nat))
    (h : rsGetLujvoWithAnalytics (rsOwn A (n + 2) Y k) (n + 2) rs t = .ok (w, sc, ix)) :
    rsGetVeljvo (rsSelf A (n + 2) Y k) (n + 2) s w = .ok (ws.map reading) ∧
    ∃ ps, rsAnalyseBrivla (rsSelf A (n + 2) Y k) (n + 2) s w = .ok (.cmevla, ps) ∧
      ∃ tie tie' : Int, (tie = 1 ∧ TieAt w ix ∨ tie = 0 ∧ ¬ TieAt w ix) ∧ (tie' = 1 ∧ TieShape w ∨ tie' = 0 ∧ ¬ TieShape w) ∧
      rsScoreLujvo (rsSelf A (n + 2) Y k) (n + 2) s w =
        .ok (sc + 100 * ((ps.count s%"r" : Int) + (ps.count s%"n" : Int)) + tie - tie') := by
  have hform : ∀ w ∈ ws, Gismu s.allowMz (reading w) ∨ CmavoForm (reading w) ∧ ∃ l, (reading w).getLast? = some l ∧ Vowel l := by
    intro w hw
    obtain ⟨⟨r, hr⟩, hf, -⟩ := hc w hw
    exact hf.imp id fun h => ⟨h, table_ends hr⟩
  obtain ⟨p1, p2, p3, p5⟩ := rs_cmevla_py hs hws ht hd (fun w hw => own_of_form (hform w hw)) hlen hk h2 hmax hg h
  have hbig : (180000 : Nat) < 10 ^ 96 := by decide
  obtain ⟨ps, q1, q2, q3, -⟩ := plain_cmevla (t := .str t) (ws := ws) hws (fun v hv => (hc v hv).form) p1
  obtain ⟨h1, h1'⟩ := C94_cmevla (rsSelf A (n + 2) Y k) n s w ps p3 (by rw [q3, q2]) q1 (by rw [q3]; exact p5)
  have h4 := C43_round_trip_partial (t := .str t) (ws := ws) hws hc p2 (by omega)
  obtain ⟨vs, v1, v2⟩ := C94_get_veljvo A n k Y s w ps p3 (by rw [q3, q2]) q1 (by rw [q3]; exact p5) hk6
  rw [h4] at v1
  cases v1
  refine ⟨v2, ps, h1', ?_⟩
  obtain ⟨ty, ps', a1, -, tie, tie', t1, t2, t3⟩ := C35_known_partial (t := .str t) (ws := ws) hws hc p1 (by omega)
  rw [h1] at a1
  cases a1
  obtain ⟨sc', s1, s2⟩ := C94_score (rsSelf A (n + 2) Y k) n s w ps p3 q3 q2 q1 p5
  rw [t3] at s1
  cases s1
  refine ⟨tie, tie', t1, t2, ?_⟩
  rw [s2]
  have hcount : ∀ ps : List Str, ps.countP (fun p => decide (OneLetterHyphen p)) = ps.count s%"y" + ps.count s%"r" + ps.count s%"n" := by
    intro ps
    induction ps with
    | nil => rfl
    | cons p ps ih =>
      simp only [OneLetterHyphen] at ih ⊢
      simp only [List.countP_cons, List.count_cons, ih]
      by_cases e1 : p = s%"y"
      · subst e1; simp; omega
      by_cases e2 : p = s%"n"
      · subst e2; simp; omega
      by_cases e3 : p = s%"r"
      · subst e3; simp; omega
      simp [e1, e2, e3]
  rw [hcount]
  congr 1
  push_cast
  omega

/-- A rest that takes nothing for a brivla. -/
private def rest94 : RsRest := ⟨fun _ _ => .error .notBrivla, fun _ _ => .error .notZihevla⟩

private def noY94 : Settings → Bool → Str → Except RsErr (RsKind × List Str) := fun _ _ _ => .error .notBrivla

/-- A tanru in the Rust crate: made into a cmevla (that ends in r), read back, and scored 1 higher (for the tie-break). -/
example : rsGetLujvoWithAnalytics (rsOwn rest94 2 noY94 6) 2 { generateCmevla := true } s%"djacu lanzu bartu" =
      .ok (s%"jaulazbar", 8815, [(0, 3), (3, 6), (6, 9)]) ∧
    rsAnalyseBrivla (rsSelf rest94 2 noY94 6) 2 {} s%"jaulazbar" = .ok (.cmevla, [s%"jau", s%"laz", s%"bar"]) ∧
    rsGetVeljvo (rsSelf rest94 2 noY94 6) 2 {} s%"jaulazbar" = .ok [s%"djacu", s%"lanzu", s%"bartu"] ∧
    rsScoreLujvo (rsSelf rest94 2 noY94 6) 2 {} s%"jaulazbar" = .ok 8816 := by decide +kernel

/-- It meets the hypotheses. -/
example : Spaced s%"djacu lanzu bartu" [s%"djacu", s%"lanzu", s%"bartu"] ∧
    ∀ w ∈ [s%"djacu", s%"lanzu", s%"bartu"], ¬ StrayDot w ∧ Gismu false (reading w) ∧ Known false (reading w) := by
  refine ⟨?_, ?_⟩
  · exact .word (u := []) (w := s%"djacu") (rest := s%" lanzu bartu") (by decide) (by decide) (by decide) (by decide)
      (.word (u := s%" ") (w := s%"lanzu") (rest := s%" bartu") (by decide) (by decide) (by decide) (by decide)
        (.word (u := s%" ") (w := s%"bartu") (rest := []) (by decide) (by decide) (by decide) (by decide) (.none (by decide))))
  · have h0 : ∀ w ∈ [s%"djacu", s%"lanzu", s%"bartu"], rsNormalise w = reading w ∧ reading w = w := by decide
    have h1 : ∀ v ∈ [s%"djacu", s%"lanzu", s%"bartu"], v ∉ sharedStems := by decide +kernel
    have h2 : ∀ v ∈ [s%"djacu", s%"lanzu", s%"bartu"], isGismu false v = true := by decide +kernel
    have h3 : ∀ v ∈ [s%"djacu", s%"lanzu", s%"bartu"], (RAFSI_LIST.find? (fun e => e.1 == v)).isSome = true := by decide +kernel
    intro w hw
    have hg := isGismu_iff.1 (h2 w hw)
    obtain ⟨k1, k2⟩ := h0 w hw
    rw [k2]
    refine ⟨(C87_reading w).1 k1, hg, ?_, .inl hg, h1 w hw⟩
    have := h3 w hw
    rw [List.find?_isSome] at this
    obtain ⟨⟨v', rs⟩, hm, e⟩ := this
    rw [beq_iff_eq] at e
    cases e
    exact ⟨rs, hm⟩

/-- A word that meets the hypotheses of the theorems on single words, and its two scores: 100 for the r. -/
example : CmevlaPieces {} [s%"jau", s%"r", s%"brid"] ∧ ¬ StrayDot s%"jaurbrid" ∧ reading s%"jaurbrid" = s%"jaurbrid" ∧
    scoreLujvo .linked {} s%"jaurbrid" = .ok 7877 ∧ rsScoreLujvo (rsSelf rest94 2 noY94 6) 2 {} s%"jaurbrid" = .ok 7977 :=
  ⟨(C42_only_cmevla (b := .linked) (w := s%"jaurbrid") (by decide +kernel) (by decide)).2, (rsNormalise_iff _).1 (by decide), by decide,
    by decide +kernel, by decide +kernel⟩

end Jvotci
