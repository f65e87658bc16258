import Verif.Props.RsOwn
import Verif.Props.RsVeljvo
import Verif.Props.Score
import Verif.Props.Found

/-!
# The Rust crate undoes what it makes (C92)
-/

namespace Jvotci

open Spec

theorem made_word {A : RsRest} {s : Settings} {vs : List Str} {r : Str × Int × List (Nat × Nat)} (hc : ∀ v ∈ vs, RsComponent A s v) (h2 : 2 ≤ vs.length)
    (hmax : vs.length < 60000) (h : getLujvoFromList (program .linked) s false vs = .ok r) : Cuttable r.1 ∧ r.1.length ≤ 9 * vs.length := by
  obtain ⟨ll, best, l1, l2, l3, l4, -⟩ := rs_list false hc h2 (by omega)
  unfold getLujvoFromList at h
  rw [l1, ok_bind, l2, ok_bind] at h
  cases hp : pickBest false best with
  | none => rw [hp] at h; cases h
  | some r' =>
    obtain ⟨a, t, c, e, hw, ha, hl, hv, hlen⟩ := picked_word l4 l2 hp
    rw [hp] at h
    have : r' = r := by
      simp only [Bool.not_false, if_true] at h
      obtain ⟨b, -, h⟩ := bind_ok h
      cases b
      · cases h; rfl
      · cases h
    subst this
    exact ⟨hw, by omega⟩

theorem table_ends {v : Str} {rs : List Str} (h : (v, rs) ∈ RAFSI_LIST) : ∃ l, v.getLast? = some l ∧ Vowel l := by
  have key : RAFSI_LIST.all (fun e => match e.1.getLast? with | some l => isVowel l | none => false) = true := by decide +kernel
  have := List.all_eq_true.1 key _ h
  dsimp only at this
  cases hl : v.getLast? with
  | none => rw [hl] at this; cases this
  | some l => rw [hl] at this; exact ⟨l, rfl, (isVowel_iff l).1 this⟩

/-- A gismu, or a word without consonant cluster that ends in a vowel. -/
theorem own_of_form {s : Settings} {v : Str} (h : Gismu s.allowMz v ∨ CmavoForm v ∧ ∃ l, v.getLast? = some l ∧ Vowel l) : OwnComponent s v := by
  rcases h with h | ⟨⟨h1, h2⟩, h3⟩
  · exact .gismu h
  · refine .cmavo h1 h3 ?_
    rintro a b ha hb ⟨u, w, e⟩
    exact h2 a b ⟨u, w, by rw [e]; simp⟩ ⟨ha, hb⟩

/-- What the Rust crate makes of a tanru of gismu and cmavo, the Python version makes too; and the word is spelt in plain letters. -/
theorem rs_made_py {A : RsRest} {n k : Nat} {Y : Settings → Bool → Str → Except RsErr (RsKind × List Str)} {rs : RsSettings} {s : Settings}
    (hs : s = { yHyphens := rs.yHyphens, consonants := rs.consonants, expRafsi := rs.expRafsi, glides := rs.glides, allowMz := rs.allowMz })
    {t : Str} {ws : List Str} (hws : Spaced t ws) (ht : ∀ c ∈ t, c.toNat ∉ [0x1C, 0x1D, 0x1E, 0x1F]) (hd : ∀ w ∈ ws, ¬ StrayDot w)
    (hc : ∀ w ∈ ws, OwnComponent s (reading w)) (hlen : ∀ w ∈ ws, (reading w).length < 180000) (hk : ∀ w ∈ ws, (reading w).length < k)
    (h2 : 2 ≤ ws.length) (hmax : ws.length < 20000) (hg : rs.generateCmevla = false) {w : Str} {sc : Int} {ix : List (Nat × Nat)}
    (h : rsGetLujvoWithAnalytics (rsOwn A (n + 2) Y k) (n + 2) rs t = .ok (w, sc, ix)) :
    getLujvoWithAnalytics .linked s false (.str t) = .ok (w, sc, ix) ∧ getLujvo .linked s false (.str t) = .ok w ∧
      ¬ StrayDot w ∧ reading w = w ∧ w.length < 180000 := by
  have hpy : getLujvoWithAnalytics .linked s false (.str t) = .ok (w, sc, ix) ∧ getLujvo .linked s false (.str t) = .ok w := by
    rcases C91_get_lujvo A n k Y rs s hs t ws hws ht hd hc hlen hk h2 (by omega) with ⟨r, e1, e2, e3, -⟩ | ⟨-, -, e3, -⟩
    · rw [e3] at h
      cases h
      rw [hg] at e1 e2
      exact ⟨e1, e2⟩
    · rw [e3] at h; cases h
  have h3 : processTanru (.str t) = .ok (ws.map reading) := by
    unfold processTanru
    dsimp only
    rw [splitWs_spaced hws]
    exact mapM_reading (spaced_ne hws)
  have h4 := hpy.1
  rw [getLujvoWithAnalytics_program, h3, ok_bind] at h4
  obtain ⟨h5, h6⟩ := made_word (A := rsOwn A (n + 2) Y k) (by
    intro v hv
    obtain ⟨w, hw, rfl⟩ := List.mem_map.1 hv
    exact own_component (hc w hw) (hlen w hw) (hk w hw)) (by simpa using h2) (by simp; omega) h4
  refine ⟨hpy.1, hpy.2, ?_, reading_lettersY h5.letters, ?_⟩
  · have hdot : ∀ c ∈ w, c ≠ '.' := by
      rintro c hc rfl
      rcases h5.letters _ hc with h | h | h | h <;> revert h <;> decide
    clear h6 h5 h4 hpy h
    intro h
    cases h with
    | two => exact hdot '.' (by simp) rfl
    | last u h => exact hdot '.' (by simp) rfl
  · simp at h6; omega

/-- **C92 (found).** For every tanru of two gismu or more (fewer than 20000), listed or not, `get_lujvo` of the Rust crate makes a lujvo, and a
cmevla when asked for one, whatever the settings. -/
theorem C92_gismu (A : RsRest) (n k : Nat) (Y : Settings → Bool → Str → Except RsErr (RsKind × List Str)) (rs : RsSettings)
    (t : Str) (ws : List Str) (hws : Spaced t ws) (ht : ∀ c ∈ t, c.toNat ∉ [0x1C, 0x1D, 0x1E, 0x1F]) (hd : ∀ w ∈ ws, ¬ StrayDot w)
    (hc : ∀ w ∈ ws, Gismu rs.allowMz (reading w)) (hk : 6 ≤ k) (h2 : 2 ≤ ws.length) (hmax : ws.length < 20000) :
    ∃ w sc ix, rsGetLujvoWithAnalytics (rsOwn A (n + 2) Y k) (n + 2) rs t = .ok (w, sc, ix) ∧ rsGetLujvo (rsOwn A (n + 2) Y k) (n + 2) rs t = .ok w := by
  have h5 : ∀ w ∈ ws, (reading w).length = 5 := by
    intro w hw
    have := hc w hw
    generalize reading w = v at this
    cases this <;> rfl
  have hfound := C54_gismu (s := { yHyphens := rs.yHyphens, consonants := rs.consonants, expRafsi := rs.expRafsi, glides := rs.glides, allowMz := rs.allowMz })
    (g := rs.generateCmevla) (t := .str t) (ws := ws) hws h2 hc (by
      have : (20000 : Nat) < 10 ^ 95 := by decide
      omega)
  obtain ⟨w, sc, ix, hm⟩ := hfound
  rcases C91_get_lujvo A n k Y rs _ rfl t ws hws ht hd (fun w hw => .gismu (hc w hw)) (fun w hw => by have := h5 w hw; omega)
    (fun w hw => by have := h5 w hw; omega) h2 (by omega) with ⟨r, e1, e2, e3, e4⟩ | ⟨e1, -⟩
  · exact ⟨r.1, r.2.1, r.2.2, e3, e4⟩
  · rw [hm] at e1; cases e1

/-- **C92 (read back).** A lujvo that the Rust crate makes of gismu and cmavo (words without consonant cluster that end in a vowel) is a LUJVO for
its own `analyze_brivla`, and `get_rafsi_indices` of the pieces gives the places that were returned with the lujvo. -/
theorem C92_read_back (A : RsRest) (n k : Nat) (Y : Settings → Bool → Str → Except RsErr (RsKind × List Str)) (rs : RsSettings) (s : Settings)
    (hs : s = { yHyphens := rs.yHyphens, consonants := rs.consonants, expRafsi := rs.expRafsi, glides := rs.glides, allowMz := rs.allowMz })
    (t : Str) (ws : List Str) (hws : Spaced t ws) (ht : ∀ c ∈ t, c.toNat ∉ [0x1C, 0x1D, 0x1E, 0x1F]) (hd : ∀ w ∈ ws, ¬ StrayDot w)
    (hc : ∀ w ∈ ws, Gismu s.allowMz (reading w) ∨ CmavoForm (reading w) ∧ ∃ l, (reading w).getLast? = some l ∧ Vowel l)
    (hlen : ∀ w ∈ ws, (reading w).length < 180000) (hk : ∀ w ∈ ws, (reading w).length < k)
    (h2 : 2 ≤ ws.length) (hmax : ws.length < 20000) (hg : rs.generateCmevla = false) (w : Str) (sc : Int) (ix : List (Nat × Nat))
    (h : rsGetLujvoWithAnalytics (rsOwn A (n + 2) Y k) (n + 2) rs t = .ok (w, sc, ix)) :
    ∃ ps, rsAnalyseBrivla (rsSelf A (n + 2) Y k) (n + 2) s w = .ok (.lujvo, ps) ∧ rsGetRafsiIndices ps = ix := by
  obtain ⟨p1, -, p3, p4, p5⟩ := rs_made_py hs hws ht hd (fun w hw => own_of_form (hc w hw)) hlen hk h2 hmax hg h
  have hbig : (180000 : Nat) < 10 ^ 96 := by decide
  obtain ⟨ps, h1, h3⟩ := C38_gismu_partial (t := .str t) (ws := ws) hws (fun v hv => (hc v hv).imp id And.left) p1 (by omega)
  refine ⟨ps, (C88_lujvo (rsSelf A (n + 2) Y k) n s w ps p3 (by rw [p4]; exact p5)).1 (by simpa using h1), ?_⟩
  rw [(C87_lookup [] ps).2]
  exact h3

/-- **C92 (round trip).** If the words of the tanru are listed (and none of them shares its first four letters with another, C43), `get_veljvo` of
the Rust crate gives the tanru back from the lujvo that `get_lujvo` of the Rust crate made of it. `score_lujvo` of the crate gives the score that was
returned with the lujvo, except for 100 for every r or n hyphen and for the tie-break, which the search applies at the second rafsi and `score_lujvo` at
the end. -/
theorem C92_round_trip (A : RsRest) (n k : Nat) (Y : Settings → Bool → Str → Except RsErr (RsKind × List Str)) (rs : RsSettings) (s : Settings)
    (hs : s = { yHyphens := rs.yHyphens, consonants := rs.consonants, expRafsi := rs.expRafsi, glides := rs.glides, allowMz := rs.allowMz })
    (t : Str) (ws : List Str) (hws : Spaced t ws) (ht : ∀ c ∈ t, c.toNat ∉ [0x1C, 0x1D, 0x1E, 0x1F]) (hd : ∀ w ∈ ws, ¬ StrayDot w)
    (hc : ∀ w ∈ ws, Known s.allowMz (reading w)) (hlen : ∀ w ∈ ws, (reading w).length < 180000) (hk : ∀ w ∈ ws, (reading w).length < k) (hk6 : 6 ≤ k)
    (h2 : 2 ≤ ws.length) (hmax : ws.length < 20000) (hg : rs.generateCmevla = false) (w : Str) (sc : Int) (ix : List (Nat × Nat))
    (h : rsGetLujvoWithAnalytics (rsOwn A (n + 2) Y k) (n + 2) rs t = .ok (w, sc, ix)) :
    rsGetVeljvo (rsSelf A (n + 2) Y k) (n + 2) s w = .ok (ws.map reading) ∧
    ∃ ps, rsAnalyseBrivla (rsSelf A (n + 2) Y k) (n + 2) s w = .ok (.lujvo, ps) ∧
      ∃ tie tie' : Int, (tie = 1 ∧ TieAt w ix ∨ tie = 0 ∧ ¬ TieAt w ix) ∧ (tie' = 1 ∧ TieShape w ∨ tie' = 0 ∧ ¬ TieShape w) ∧
      rsScoreLujvo (rsSelf A (n + 2) Y k) (n + 2) s w =
        .ok (sc + 100 * ((ps.count s%"r" : Int) + (ps.count s%"n" : Int)) + tie - tie') := by
  have hform : ∀ w ∈ ws, Gismu s.allowMz (reading w) ∨ CmavoForm (reading w) ∧ ∃ l, (reading w).getLast? = some l ∧ Vowel l := by
    intro w hw
    obtain ⟨⟨r, hr⟩, hf, -⟩ := hc w hw
    exact hf.imp id fun h => ⟨h, table_ends hr⟩
  obtain ⟨p1, p2, p3, p4, p5⟩ := rs_made_py hs hws ht hd (fun w hw => own_of_form (hform w hw)) hlen hk h2 hmax hg h
  have hbig : (180000 : Nat) < 10 ^ 96 := by decide
  obtain ⟨ps, h1, h3⟩ := C38_gismu_partial (t := .str t) (ws := ws) hws (fun v hv => (hc v hv).form) p1 (by omega)
  have h1 : analyseBrivla .linked s w = .ok (.lujvo, ps) := by simpa using h1
  have h4 := C43_round_trip_partial (t := .str t) (ws := ws) hws hc p2 (by omega)
  obtain ⟨vs, v1, v2⟩ := C90_lujvo A n k Y s w ps p3 (by rw [p4]; exact p5) hk6 h1
  rw [h4] at v1
  cases v1
  refine ⟨v2, ps, (C88_lujvo (rsSelf A (n + 2) Y k) n s w ps p3 (by rw [p4]; exact p5)).1 h1, ?_⟩
  obtain ⟨ty, ps', a1, -, tie, tie', t1, t2, t3⟩ := C35_known_partial (t := .str t) (ws := ws) hws hc p1 (by omega)
  rw [h1] at a1
  cases a1
  obtain ⟨sc', s1, s2⟩ := C88_score (rsSelf A (n + 2) Y k) n s w ps p4 p3 p5 h1
  rw [t3] at s1
  cases s1
  refine ⟨tie, tie', t1, t2, ?_⟩
  rw [s2]
  have hcount : ∀ ps : List Str, ps.countP (fun p => decide (OneLetterHyphen p)) = ps.count s%"y" + ps.count s%"r" + ps.count s%"n" := by
    intro ps
    induction ps with
    | nil => rfl
    | cons p ps ih =>
      simp only [OneLetterHyphen] at ih ⊢
      simp only [List.countP_cons, List.count_cons, ih]
      by_cases e1 : p = s%"y"
      · subst e1; simp; omega
      by_cases e2 : p = s%"n"
      · subst e2; simp; omega
      by_cases e3 : p = s%"r"
      · subst e3; simp; omega
      simp [e1, e2, e3]
  rw [hcount]
  congr 1
  push_cast
  omega

/-- A rest that takes nothing for a brivla. -/
private def rest92 : RsRest := ⟨fun _ _ => .error .notBrivla, fun _ _ => .error .notZihevla⟩

private def noY92 : Settings → Bool → Str → Except RsErr (RsKind × List Str) := fun _ _ _ => .error .notBrivla

/-- A tanru in the Rust crate: made, read back, and scored 101 higher (100 for the r, 1 for the tie-break). -/
example : rsGetLujvoWithAnalytics (rsOwn rest92 2 noY92 6) 2 {} s%"djacu gerna karce" = .ok (s%"jaurgenkarce", 11854, [(0, 3), (4, 7), (7, 12)]) ∧
    rsAnalyseBrivla (rsSelf rest92 2 noY92 6) 2 {} s%"jaurgenkarce" = .ok (.lujvo, [s%"jau", s%"r", s%"gen", s%"karce"]) ∧
    rsGetVeljvo (rsSelf rest92 2 noY92 6) 2 {} s%"jaurgenkarce" = .ok [s%"djacu", s%"gerna", s%"karce"] ∧
    rsScoreLujvo (rsSelf rest92 2 noY92 6) 2 {} s%"jaurgenkarce" = .ok 11955 := by decide +kernel

/-- It meets the hypotheses. -/
example : Spaced s%"djacu gerna karce" [s%"djacu", s%"gerna", s%"karce"] ∧
    ∀ w ∈ [s%"djacu", s%"gerna", s%"karce"], ¬ StrayDot w ∧ Gismu false (reading w) ∧ Known false (reading w) := by
  refine ⟨?_, ?_⟩
  · exact .word (u := []) (w := s%"djacu") (rest := s%" gerna karce") (by decide) (by decide) (by decide) (by decide)
      (.word (u := s%" ") (w := s%"gerna") (rest := s%" karce") (by decide) (by decide) (by decide) (by decide)
        (.word (u := s%" ") (w := s%"karce") (rest := []) (by decide) (by decide) (by decide) (by decide) (.none (by decide))))
  · have h0 : ∀ w ∈ [s%"djacu", s%"gerna", s%"karce"], rsNormalise w = reading w ∧ reading w = w := by decide
    have h1 : ∀ v ∈ [s%"djacu", s%"gerna", s%"karce"], v ∉ sharedStems := by decide +kernel
    have h2 : ∀ v ∈ [s%"djacu", s%"gerna", s%"karce"], isGismu false v = true := by decide +kernel
    have h3 : ∀ v ∈ [s%"djacu", s%"gerna", s%"karce"], (RAFSI_LIST.find? (fun e => e.1 == v)).isSome = true := by decide +kernel
    intro w hw
    have hg := isGismu_iff.1 (h2 w hw)
    obtain ⟨k1, k2⟩ := h0 w hw
    rw [k2]
    refine ⟨(C87_reading w).1 k1, hg, ?_, .inl hg, h1 w hw⟩
    have := h3 w hw
    rw [List.find?_isSome] at this
    obtain ⟨⟨v', rs⟩, hm, e⟩ := this
    rw [beq_iff_eq] at e
    cases e
    exact ⟨rs, hm⟩

end Jvotci
