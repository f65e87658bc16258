import Verif.Props.RsNoY
import Verif.Props.Js

/-!
# The three versions together (C96)
-/

namespace Jvotci

namespace Spec

/-- One of the three versions (Python, JavaScript, Rust) makes `w` of the text `t`. `s` and `g` are the options of the first two, `rs` the settings of the
third; `O`, `n` are the parameters of the model of the Rust crate. -/
def MadeByAny (O : RsRest) (n : Nat) (rs : RsSettings) (s : Settings) (g : Bool) (t w : Str) : Prop :=
  getLujvo .linked s g (.str t) = .ok w ∨ jsGetLujvo s g (.str t) = .ok w ∨ rsGetLujvo O n rs t = .ok w

end Spec

open Spec

theorem no_dash_form {mz : Bool} {v : Str} (h : Gismu mz v ∨ CmavoForm v ∧ ∃ l, v.getLast? = some l ∧ Vowel l) (x : Str) : ¬ Dashed v x := by
  have hlet : ∀ c ∈ v, Vowel c ∨ Consonant c ∨ c = '\'' := by
    rcases h with h | ⟨h, -⟩
    · exact gismu_letters h
    · exact h.1
  intro hd
  rcases hlet _ (List.mem_of_getLast? (dashed_last hd)) with h | h | h <;> revert h <;> decide

/-- Listed words are short. -/
theorem table_short {v : Str} {rs : List Str} (h : (v, rs) ∈ RAFSI_LIST) : v.length ≤ 7 := by
  have key : RAFSI_LIST.all (fun e => decide (e.1.length ≤ 7)) = true := by decide +kernel
  have := List.all_eq_true.1 key _ h
  simpa using this

theorem spaces_rs {t : Str} (h : CommonSpaces (.str t)) : ∀ c ∈ t, c.toNat ∉ [0x1C, 0x1D, 0x1E, 0x1F] := by
  intro c hc hm
  refine h c hc ?_
  simp only [List.mem_cons, List.not_mem_nil, or_false] at hm ⊢
  rcases hm with h | h | h | h <;> simp [h]

/-- **C96 (made alike).** Of a text of gismu and of words without consonant cluster that end in a vowel, all three versions make the same word, with the
same score and the same places of the rafsi; or none makes one, and all say `NoLujvoFoundError`. -/
theorem C96_made_alike (A : RsRest) (n k : Nat) (Y : Settings → Bool → Str → Except RsErr (RsKind × List Str)) (rs : RsSettings) (s : Settings)
    (hs : s = { yHyphens := rs.yHyphens, consonants := rs.consonants, expRafsi := rs.expRafsi, glides := rs.glides, allowMz := rs.allowMz })
    (t : Str) (ws : List Str) (hws : Spaced t ws) (ht : CommonSpaces (.str t)) (hd : ∀ w ∈ ws, ¬ StrayDot w)
    (hc : ∀ w ∈ ws, Gismu s.allowMz (reading w) ∨ CmavoForm (reading w) ∧ ∃ l, (reading w).getLast? = some l ∧ Vowel l)
    (hlen : ∀ w ∈ ws, (reading w).length < 180000) (hk : ∀ w ∈ ws, (reading w).length < k) (h2 : 2 ≤ ws.length) (hmax : ws.length < 60000) :
    (∃ r, getLujvoWithAnalytics .linked s rs.generateCmevla (.str t) = .ok r ∧ jsGetLujvoWithAnalytics s rs.generateCmevla (.str t) = .ok r ∧
        rsGetLujvoWithAnalytics (rsOwn A (n + 2) Y k) (n + 2) rs t = .ok r ∧
        getLujvo .linked s rs.generateCmevla (.str t) = .ok r.1 ∧ jsGetLujvo s rs.generateCmevla (.str t) = .ok r.1 ∧
        rsGetLujvo (rsOwn A (n + 2) Y k) (n + 2) rs t = .ok r.1) ∨
      (getLujvo .linked s rs.generateCmevla (.str t) = .error .noLujvo ∧ jsGetLujvo s rs.generateCmevla (.str t) = .error .noLujvo ∧
        rsGetLujvo (rsOwn A (n + 2) Y k) (n + 2) rs t = .error .noLujvo) := by
  obtain ⟨j1, j2⟩ := C79_words_partial s rs.generateCmevla (.str t) ws hws ht fun v hv x hx => absurd hx (no_dash_form (hc v hv) x)
  rcases C91_get_lujvo A n k Y rs s hs t ws hws (spaces_rs ht) hd (fun w hw => own_of_form (hc w hw)) hlen hk h2 hmax with
    ⟨r, e1, e2, e3, e4⟩ | ⟨e1, e2, e3, e4⟩
  · rw [e1] at j1
    rw [e2] at j2
    left
    refine ⟨r, e1, ?_, e3, e2, ?_, e4⟩
    · rcases j1 (by simp) with ⟨a, h1, h2⟩ | ⟨_, _, h1, -⟩
      · cases h1; exact h2
      · cases h1
    · rcases j2 (by simp) with ⟨a, h1, h2⟩ | ⟨_, _, h1, -⟩
      · cases h1; exact h2
      · cases h1
  · rw [e2] at j2
    right
    refine ⟨e2, ?_, e4⟩
    rcases j2 (by simp) with ⟨a, h1, -⟩ | ⟨e, e', h1, h2, h3⟩
    · cases h1
    · cases h1
      rw [h2]
      cases h3
      rfl

/-- **C96 (undone by all).** A word that any of the three versions makes of listed gismu and cmavo (none of which shares its first four letters with another,
C43) is taken apart into the tanru by `get_veljvo` of all three. -/
theorem C96_undone_by_all (A : RsRest) (n k : Nat) (Y : Settings → Bool → Str → Except RsErr (RsKind × List Str)) (rs : RsSettings) (s : Settings)
    (hs : s = { yHyphens := rs.yHyphens, consonants := rs.consonants, expRafsi := rs.expRafsi, glides := rs.glides, allowMz := rs.allowMz })
    (t : Str) (ws : List Str) (hws : Spaced t ws) (ht : CommonSpaces (.str t)) (hd : ∀ w ∈ ws, ¬ StrayDot w)
    (hc : ∀ w ∈ ws, Known s.allowMz (reading w)) (hk : 8 ≤ k) (h2 : 2 ≤ ws.length) (hmax : ws.length < 20000) (w : Str)
    (h : MadeByAny (rsOwn A (n + 2) Y k) (n + 2) rs s rs.generateCmevla t w) :
    getVeljvo .linked s w = .ok (ws.map reading) ∧ jsGetVeljvo s w = .ok (ws.map reading) ∧
      rsGetVeljvo (rsSelf A (n + 2) Y k) (n + 2) s w = .ok (ws.map reading) := by
  have hform : ∀ w ∈ ws, Gismu s.allowMz (reading w) ∨ CmavoForm (reading w) ∧ ∃ l, (reading w).getLast? = some l ∧ Vowel l := by
    intro w hw
    obtain ⟨⟨r, hr⟩, hf, -⟩ := hc w hw
    exact hf.imp id fun h => ⟨h, table_ends hr⟩
  have hshort : ∀ w ∈ ws, (reading w).length ≤ 7 := by
    intro w hw
    obtain ⟨⟨r, hr⟩, -, -⟩ := hc w hw
    exact table_short hr
  have hlen : ∀ w ∈ ws, (reading w).length < 180000 := fun w hw => by have := hshort w hw; omega
  have hk' : ∀ w ∈ ws, (reading w).length < k := fun w hw => by have := hshort w hw; omega
  have hbig : (180000 : Nat) < 10 ^ 96 := by decide
  rcases C96_made_alike A n k Y rs s hs t ws hws ht hd hform hlen hk' h2 (by omega) with ⟨r, -, -, e3, e4, e5, e6⟩ | ⟨e4, e5, e6⟩
  rotate_left
  · rcases h with h | h | h
    · rw [e4] at h; cases h
    · rw [e5] at h; cases h
    · rw [e6] at h; cases h
  have hw : w = r.1 := by
    rcases h with h | h | h
    · rw [e4] at h; cases h; rfl
    · rw [e5] at h; cases h; rfl
    · rw [e6] at h; cases h; rfl
  subst hw
  obtain ⟨w, sc, ix⟩ := r
  dsimp only at *
  have hpy : w.length < 180000 ∧ rsGetVeljvo (rsSelf A (n + 2) Y k) (n + 2) s w = .ok (ws.map reading) := by
    cases hg : rs.generateCmevla with
    | false =>
      exact ⟨(rs_made_py hs hws (spaces_rs ht) hd (fun w hw => own_of_form (hform w hw)) hlen hk' h2 hmax hg e3).2.2.2.2,
        (C92_round_trip A n k Y rs s hs t ws hws (spaces_rs ht) hd hc hlen hk' (by omega) h2 hmax hg w sc ix e3).1⟩
    | true =>
      exact ⟨(rs_cmevla_py hs hws (spaces_rs ht) hd (fun w hw => own_of_form (hform w hw)) hlen hk' h2 hmax hg e3).2.2.2,
        (C94_round_trip A n k Y rs s hs t ws hws (spaces_rs ht) hd hc hlen hk' (by omega) h2 hmax hg w sc ix e3).1⟩
  have h4 := C43_round_trip_partial (t := .str t) (ws := ws) hws hc e4 (by omega)
  refine ⟨h4, ?_, hpy.2⟩
  rcases C78_get_veljvo s w (by rw [h4]; simp) with ⟨a, k1, k2⟩ | ⟨_, _, k1, -⟩
  · rw [h4] at k1
    cases k1
    exact k2
  · rw [h4] at k1
    cases k1

/-- **C96 (different words).** Different tanru of such words are made into different words, even by different versions. -/
theorem C96_different (A : RsRest) (n k : Nat) (Y : Settings → Bool → Str → Except RsErr (RsKind × List Str)) (rs : RsSettings) (s : Settings)
    (hs : s = { yHyphens := rs.yHyphens, consonants := rs.consonants, expRafsi := rs.expRafsi, glides := rs.glides, allowMz := rs.allowMz })
    (t t' : Str) (ws ws' : List Str) (hws : Spaced t ws) (hws' : Spaced t' ws') (ht : CommonSpaces (.str t)) (ht' : CommonSpaces (.str t'))
    (hd : ∀ w ∈ ws ++ ws', ¬ StrayDot w) (hc : ∀ w ∈ ws ++ ws', Known s.allowMz (reading w)) (hk : 8 ≤ k)
    (h2 : 2 ≤ ws.length) (h2' : 2 ≤ ws'.length) (hmax : ws.length < 20000) (hmax' : ws'.length < 20000) (w : Str)
    (h : MadeByAny (rsOwn A (n + 2) Y k) (n + 2) rs s rs.generateCmevla t w)
    (h' : MadeByAny (rsOwn A (n + 2) Y k) (n + 2) rs s rs.generateCmevla t' w) : ws.map reading = ws'.map reading := by
  have e1 := (C96_undone_by_all A n k Y rs s hs t ws hws ht (fun w hw => hd w (by simp [hw])) (fun w hw => hc w (by simp [hw])) hk h2 hmax w h).1
  have e2 := (C96_undone_by_all A n k Y rs s hs t' ws' hws' ht' (fun w hw => hd w (by simp [hw])) (fun w hw => hc w (by simp [hw])) hk h2' hmax' w h').1
  rw [e1] at e2
  exact Except.ok.inj e2

/-- **C96 (read alike).** Of every word that is read as vowels, consonants and apostrophes (and has fewer than 180000 letters), whatever its last letter
is, the three versions say the same: the same type and the same pieces, or all three say `NotBrivlaError`. With `allow_mz` there must be no mz in it
before b, d, g, m or v, unless the last letter is a consonant. -/
theorem C96_read_alike (A : RsRest) (n k : Nat) (Y : Settings → Bool → Str → Except RsErr (RsKind × List Str)) (s : Settings) (w : Str)
    (hd : ¬ StrayDot w) (hlet : ∀ c ∈ reading w, Vowel c ∨ Consonant c ∨ c = '\'') (hne : reading w ≠ [])
    (hlen : (reading w).length < 180000) (hk : (reading w).length < k)
    (hmz : s.allowMz = true → (∃ l, (reading w).getLast? = some l ∧ Consonant l) ∨ ∀ c, InitialPair 'z' c → ¬ Occurs ['m', 'z', c] (reading w)) :
    (∃ r, analyseBrivla .linked s w = .ok r ∧ jsAnalyseBrivla s w = .ok r ∧ rsAnalyseFull A (n + 2) Y k s w = .ok r) ∨
    (analyseBrivla .linked s w = .error .notBrivla ∧ jsAnalyseBrivla s w = .error .notBrivla ∧
      rsAnalyseFull A (n + 2) Y k s w = .error .notBrivla) := by
  have hwne : w ≠ [] := by rintro rfl; exact hne rfl
  have hy : 'y' ∉ reading w := by
    intro hc
    rcases hlet _ hc with h | h | h <;> revert h <;> decide
  have hpy : (∃ t ps, analyseBrivla .linked s w = .ok (t, ps)) ∨ analyseBrivla .linked s w = .error .notBrivla := by
    rcases C15_words_without_y_partial .linked s hwne hy with ⟨h1, -⟩ | ⟨h1, -⟩
    · exact h1
    · cases h1
  have hjs := C78_analyse_brivla s w (by rcases hpy with ⟨t, ps, h⟩ | h <;> rw [h] <;> simp)
  rcases hpy with ⟨t, ps, h⟩ | h
  · left
    refine ⟨(t, ps), h, ?_, (C95_same A n k Y s w t ps hd hlet hne hlen hk hmz).2 h⟩
    rcases hjs with ⟨a, k1, k2⟩ | ⟨_, _, k1, -⟩
    · rw [h] at k1
      cases k1
      exact k2
    · rw [h] at k1
      cases k1
  · right
    refine ⟨h, ?_, ((C95_refused A n k Y s w hd hlet hne hlen hk).2 hmz).2 h⟩
    rcases hjs with ⟨a, k1, -⟩ | ⟨e, e', k1, k2, k3⟩
    · rw [h] at k1
      cases k1
    · rw [h] at k1
      cases k1
      rw [k2]
      cases k3
      rfl

/-- **C96 (lujvo).** A word, with y or without, that is a LUJVO with pieces `ps` for the Python version is one for the two others; and the converse holds
for plain words (in the sense of C88) that end in a vowel. -/
theorem C96_lujvo (O : RsOther) (n : Nat) (s : Settings) (w : Str) (ps : List Str) (hd : ¬ StrayDot w) (hlen : (reading w).length < 180000) :
    (analyseBrivla .linked s w = .ok (.lujvo, ps) → jsAnalyseBrivla s w = .ok (.lujvo, ps) ∧ rsAnalyseBrivla O (n + 2) s w = .ok (.lujvo, ps)) ∧
    (PlainWord (reading w) → (∃ l, (reading w).getLast? = some l ∧ Vowel l) →
      jsAnalyseBrivla s w = .ok (.lujvo, ps) ∨ rsAnalyseBrivla O (n + 2) s w = .ok (.lujvo, ps) → analyseBrivla .linked s w = .ok (.lujvo, ps)) := by
  obtain ⟨r1, r2⟩ := C88_lujvo O n s w ps hd hlen
  refine ⟨fun h => ⟨?_, r1 h⟩, fun hp ⟨l, hl, hv⟩ h => ?_⟩
  · rcases C78_analyse_brivla s w (by rw [h]; simp) with ⟨a, k1, k2⟩ | ⟨_, _, k1, -⟩
    · rw [h] at k1
      cases k1
      exact k2
    · rw [h] at k1
      cases k1
  · rcases h with h | h
    · rcases C78_words s w (by rintro rfl; cases hl) (fun _ u t e => hp.yy ⟨u ++ s%"'", t, by rw [e]; simp⟩) (by
        intro _ u x y e
        rw [e] at hl
        simp at hl
        subst hl
        exact absurd hv (by decide)) with ⟨a, k1, k2⟩ | ⟨_, _, -, k2, -⟩
      · rw [h] at k2
        cases k2
        exact k1
      · rw [h] at k2
        cases k2
    · exact r2 hp h

private def rest96 : RsRest := ⟨fun _ _ => .error .notBrivla, fun _ _ => .error .notZihevla⟩
private def noY96 : Settings → Bool → Str → Except RsErr (RsKind × List Str) := fun _ _ _ => .error .notBrivla

/-- A tanru in the three versions (its words meet the hypotheses, as is shown beside C94). -/
example : getLujvo .linked {} true (.str s%"djacu lanzu bartu") = .ok s%"jaulazbar" ∧ jsGetLujvo {} true (.str s%"djacu lanzu bartu") = .ok s%"jaulazbar" ∧
    rsGetLujvo (rsOwn rest96 2 noY96 8) 2 { generateCmevla := true } s%"djacu lanzu bartu" = .ok s%"jaulazbar" ∧
    getVeljvo .linked {} s%"jaulazbar" = .ok [s%"djacu", s%"lanzu", s%"bartu"] ∧ jsGetVeljvo {} s%"jaulazbar" = .ok [s%"djacu", s%"lanzu", s%"bartu"] ∧
    rsGetVeljvo (rsSelf rest96 2 noY96 8) 2 {} s%"jaulazbar" = .ok [s%"djacu", s%"lanzu", s%"bartu"] := by decide +kernel

/-- A word that all three refuse, and one that all three take for a zi'evla. -/
example : (∀ c ∈ reading s%"spagetie", Vowel c ∨ Consonant c ∨ c = '\'') ∧
    analyseBrivla .linked {} s%"spageti" = .ok (.zihevla, [s%"spageti"]) ∧ jsAnalyseBrivla {} s%"spageti" = .ok (.zihevla, [s%"spageti"]) ∧
    rsAnalyseFull rest96 2 noY96 8 {} s%"spageti" = .ok (.zihevla, [s%"spageti"]) ∧
    analyseBrivla .linked {} s%"spageted" = .error .notBrivla ∧ jsAnalyseBrivla {} s%"spageted" = .error .notBrivla ∧
    rsAnalyseFull rest96 2 noY96 9 {} s%"spageted" = .error .notBrivla :=
  ⟨by decide, by decide +kernel, by decide +kernel, by decide +kernel, by decide +kernel, by decide +kernel, by decide +kernel⟩

example : CommonSpaces (.str s%"djacu lanzu bartu") := by
  show ∀ c ∈ s%"djacu lanzu bartu", c.toNat ∉ [0x1C, 0x1D, 0x1E, 0x1F, 0x85, 0xFEFF]
  decide

end Jvotci
