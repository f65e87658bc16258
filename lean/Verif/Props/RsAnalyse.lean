import Verif.Lemmas.RsAnalyse

/-!
# Lujvo given to the Rust crate (C88)
-/

namespace Jvotci

open Spec

/-- **C88 (gismu).** Of words without stray full stops, the Rust crate's `analyze_brivla` says GISMU of the same ones. -/
theorem C88_gismu (O : RsOther) (n : Nat) (s : Settings) (w : Str) (ps : List Str) (hd : ¬ StrayDot w) :
    rsAnalyseBrivla O (n + 2) s w = .ok (.gismu, ps) ↔ analyseBrivla .linked s w = .ok (.gismu, ps) := (rs_analyse_gismu hd).symm

/-- **C88 (lujvo).** If `w` has no stray full stop and fewer than 180000 letters, and the Python version says LUJVO of it, so does the Rust
crate, with the same pieces. Conversely, if `w` is read as a plain word, and Rust says LUJVO, so does Python. -/
theorem C88_lujvo (O : RsOther) (n : Nat) (s : Settings) (w : Str) (ps : List Str) (hd : ¬ StrayDot w) (hlen : (reading w).length < 180000) :
    (analyseBrivla .linked s w = .ok (.lujvo, ps) → rsAnalyseBrivla O (n + 2) s w = .ok (.lujvo, ps)) ∧
    (PlainWord (reading w) → rsAnalyseBrivla O (n + 2) s w = .ok (.lujvo, ps) → analyseBrivla .linked s w = .ok (.lujvo, ps)) := by
  refine ⟨fun h => ?_, fun hp => (rs_analyse_lujvo hd hlen hp).2⟩
  obtain ⟨e, h1⟩ := C41_only_lujvo h
  exact (rs_analyse_lujvo hd hlen (e ▸ lujvoPieces_plain h1)).1 h

/-- A crate whose rest takes nothing for a brivla or a zi'evla. -/
private def bare88 : RsOther := ⟨⟨fun _ _ => .error .notBrivla, fun _ _ => .error .notZihevla⟩, fun _ _ _ => .error .notBrivla⟩

/-- The hypotheses are met; and full stops and strings that are not plain make a difference. -/
example : ¬ StrayDot s%"soIrsai" ∧ analyseBrivla .linked {} s%"soIrsai" = .ok (.lujvo, [s%"soi", s%"r", s%"sai"]) ∧
    rsAnalyseBrivla bare88 2 {} s%"latkla." = .ok (.lujvo, [s%"lat", s%"kla"]) ∧ analyseBrivla .linked {} s%"latkla." = .error .notBrivla :=
  ⟨(rsNormalise_iff _).1 (by decide), by decide +kernel, by decide +kernel, by decide +kernel⟩

/-- **C88 (get_veljvo).** If the Python version says LUJVO of such a word, and each of its rafsi belongs to some word, both versions
give the same words. -/
theorem C88_get_veljvo (O : RsOther) (n : Nat) (s : Settings) (w : Str) (ps : List Str) (hd : ¬ StrayDot w) (hlen : (reading w).length < 180000)
    (h : analyseBrivla .linked s w = .ok (.lujvo, ps)) (hk : ∀ p ∈ ps, ¬ Hyphen p → searchSelrafsi p ≠ none) :
    ∃ vs, getVeljvo .linked s w = .ok vs ∧ rsGetVeljvo O (n + 2) s w = .ok vs := by
  have h2 := (C88_lujvo O n s w ps hd hlen).1 h
  refine ⟨rsSelrafsiFrom O (n + 2) s ps 0 ps, ?_, ?_⟩
  · unfold getVeljvo
    rw [h, ok_bind]
    dsimp only
    rw [if_neg (by simp)]
    exact rs_selrafsi 0 ps hk
  · unfold rsGetVeljvo
    rw [h2]
    dsimp only
    rw [if_pos (.inl rfl)]

example : ¬ StrayDot s%"mlatyci'a" ∧ analyseBrivla .linked {} s%"mlatyci'a" = .ok (.lujvo, [s%"mlat", s%"y", s%"ci'a"]) ∧
    (∀ p ∈ [s%"mlat", s%"y", s%"ci'a"], ¬ Hyphen p → searchSelrafsi p ≠ none) ∧
    rsGetVeljvo bare88 2 {} s%"mlatyci'a" = .ok [s%"mlatu", s%"ciska"] :=
  ⟨(rsNormalise_iff _).1 (by decide), by decide +kernel, by decide +kernel, by decide +kernel⟩

/-- **C88 (score_lujvo).** Of a lujvo written in small letters, without commas and h, the Rust crate's score is the Python version's and 100
more for each hyphen of one letter. (A lujvo made by `get_lujvo` has the same score in both, C86.) -/
theorem C88_score (O : RsOther) (n : Nat) (s : Settings) (w : Str) (ps : List Str) (hw : reading w = w) (hd : ¬ StrayDot w) (hlen : w.length < 180000)
    (h : analyseBrivla .linked s w = .ok (.lujvo, ps)) :
    ∃ sc, scoreLujvo .linked s w = .ok sc ∧ rsScoreLujvo O (n + 2) s w = .ok (sc + 100 * (ps.countP (fun p => decide (OneLetterHyphen p)) : Int)) := by
  have h2 := (C88_lujvo O n s w ps hd (by rw [hw]; exact hlen)).1 h
  obtain ⟨vs, hvs⟩ := (C30_returns s w).2 ⟨_, _, h, .inl rfl⟩
  obtain ⟨e, h1⟩ := C41_only_lujvo h
  rw [hw] at e
  refine ⟨(ps.map pieceScore).sum - tiebreak w, ?_, ?_⟩
  · unfold scoreLujvo
    rw [hvs, ok_bind, h, ok_bind]
  · unfold rsScoreLujvo rsGetVeljvo
    rw [h2]
    dsimp only
    rw [if_pos (.inl rfl)]
    dsimp only
    have := rs_tiebreak_lujvo h1
    rw [e] at this
    rw [this, rs_scores (mz := s.allowMz) fun p hp => (reading_pieces h1.reading p hp).symm]
    congr 1
    omega

/-- The two scores of a lujvo with a one-letter hyphen. -/
example : reading s%"soirsai" = s%"soirsai" ∧ analyseBrivla .linked {} s%"soirsai" = .ok (.lujvo, [s%"soi", s%"r", s%"sai"]) ∧
    scoreLujvo .linked {} s%"soirsai" = .ok 6836 ∧ rsScoreLujvo bare88 2 {} s%"soirsai" = .ok 6936 :=
  ⟨by decide, by decide +kernel, by decide +kernel, by decide +kernel⟩

end Jvotci
