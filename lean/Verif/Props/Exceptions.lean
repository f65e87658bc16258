import Verif.Lemmas.CleanY
import Verif.Props.Pinned
import Verif.Props.Score

/-!
# C15: which words make `analyse_brivla` raise something other than `NotBrivlaError`; C30, C44: when `get_veljvo` and
`score_lujvo` return
-/

namespace Jvotci

open Spec

theorem linked_of_pinned {α : Type} {x y : Except Err α} {e : Err} (h : x = .error .name ∨ x = y) (hx : x = .error e)
    (hn : e ≠ .name) : y = .error e := by
  rcases h with h | h
  · rw [h] at hx; cases hx; exact absurd rfl hn
  · rw [← h, hx]

/-- **C15**, part: `analyse_brivla` raises `IndexError` on nothing but the empty string; words in which `'yy` is read,
with standard hyphens; and, unless all hyphens are `y`, words that end in `r` after two vowels, with or without `'`
between them. Missing: such words do raise it (`C15_false`). -/
theorem C15_index_error_partial {b : Build} {s : Settings} {w : Str} (h : analyseBrivla b s w = .error .index) :
    w = [] ∨ (s.yHyphens = .standard ∧ ∃ u t, reading w = u ++ s%"'yy" ++ t) ∨
    (s.yHyphens ≠ .forceY ∧ ∃ u x y, reading w = u ++ [x, y, 'r'] ∧ Vowel y ∧ (Vowel x ∨ x = '\'')) := by
  have h' : analyseBrivla .linked s w = .error .index := by
    cases b with
    | linked => exact h
    | pinned => exact linked_of_pinned (C34_import_changes_nothing_else.1 s w) h (by decide)
  by_cases hne : w = []
  · exact .inl hne
  · refine .inr (Classical.byContradiction fun hno => ?_)
    have := clean_word (E := [.notBrivla, .decomposition]) (s := s) (by simp) hne (.inl (by simp)) (.inr hno) _ h'
    simp at this

/-- **C15**, part: `analyse_brivla` raises `DecompositionError` on nothing but words in which `y'` is read before a run
of vowels that cannot be divided into syllables. Missing: such words do raise it (`C15_false`). -/
theorem C15_decomposition_error_partial {b : Build} {s : Settings} {w : Str}
    (h : analyseBrivla b s w = .error .decomposition) :
    ∃ u v t, reading w = u ++ s%"y'" ++ v ++ t ∧ v ≠ [] ∧ (∀ c ∈ v, Vowel c) ∧ (∀ c, t.head? = some c → ¬ Vowel c) ∧
      ¬ ∃ syls, syls.flatten = v ∧ VowelRun syls := by
  have h' : analyseBrivla .linked s w = .error .decomposition := by
    cases b with
    | linked => exact h
    | pinned => exact linked_of_pinned (C34_import_changes_nothing_else.1 s w) h (by decide)
  have hne : w ≠ [] := by
    rintro rfl
    rw [analyseBrivla_program] at h'
    cases h'
  apply Classical.byContradiction
  intro hno
  have := clean_word (E := [.notBrivla, .index]) (s := s) (by simp) hne
    (.inr fun ⟨u, v, t, h1, h2, h3, h4, h5⟩ => hno ⟨u, v, t, h1, h2, h3, h4, fun ⟨syls, h⟩ =>
      h5 syls (splitVowelCluster_iff.2 h)⟩) (.inl (by simp)) _ h'
  simp at this

/-- **C15**, part: of a non-empty word that is read without `y`, `analyse_brivla` either returns an analysis or raises
`NotBrivlaError`, and `is_brivla` returns (or, at the pinned commit, both raise `NameError`). Missing: words with `y`,
for which the two theorems above say what can go wrong. -/
theorem C15_words_without_y_partial (b : Build) (s : Settings) {w : Str} (hne : w ≠ []) (hy : 'y' ∉ reading w) :
    (((∃ t ps, analyseBrivla b s w = .ok (t, ps)) ∨ analyseBrivla b s w = .error .notBrivla) ∧
      ∃ t, isBrivla b s w = .ok t) ∨
    (b = .pinned ∧ analyseBrivla b s w = .error .name ∧ isBrivla b s w = .error .name) := by
  have key := clean_analyse (s := s) hne hy
  have hl : ((∃ t ps, analyseBrivla .linked s w = .ok (t, ps)) ∨ analyseBrivla .linked s w = .error .notBrivla) := by
    cases h : analyseBrivla .linked s w with
    | ok r => exact .inl ⟨r.1, r.2, rfl⟩
    | error e =>
      have := key e h
      simp at this
      rw [this]
      exact .inr rfl
  have hb : ∀ b, ((∃ t ps, analyseBrivla b s w = .ok (t, ps)) ∨ analyseBrivla b s w = .error .notBrivla) →
      ∃ t, isBrivla b s w = .ok t := by
    rintro b (⟨t, ps, h⟩ | h) <;> unfold isBrivla <;> rw [h] <;> exact ⟨_, rfl⟩
  cases b with
  | linked => exact .inl ⟨hl, hb _ hl⟩
  | pinned =>
    rcases C34_import_changes_nothing_else.1 s w with h | h
    · refine .inr ⟨rfl, h, ?_⟩
      unfold isBrivla
      rw [h]
    · rw [← h] at hl
      exact .inl ⟨hl, hb _ hl⟩

/-- The exceptional words meet the conditions. -/
example : (analyseBrivla .linked {} s%"smatyspageir" = .error .index ∧
      reading s%"smatyspageir" = s%"smatyspag" ++ ['e', 'i', 'r'] ∧ Vowel 'i' ∧ Vowel 'e') ∧
    (analyseBrivla .linked {} s%"ba'yyla" = .error .index ∧ reading s%"ba'yyla" = s%"ba" ++ s%"'yy" ++ s%"la") ∧
    (analyseBrivla .linked {} s%"laty'aoa" = .error .decomposition ∧
      reading s%"laty'aoa" = s%"lat" ++ s%"y'" ++ s%"aoa" ++ []) := by decide +kernel

example : s%"spageti" ≠ [] ∧ 'y' ∉ reading s%"spageti" ∧ analyseBrivla .linked {} s%"spageti" = .ok (.zihevla, [s%"spageti"]) ∧
    s%"tosmabru" ≠ [] ∧ 'y' ∉ reading s%"tosmabru" ∧ analyseBrivla .linked {} s%"tosmabru" = .error .notBrivla ∧
    isBrivla .linked {} s%"tosmabru" = .ok false := by decide +kernel

/-! ## When `get_veljvo` and `score_lujvo` return -/

theorem formatPiece_total {s : Settings} {ps : List Str} {i : Nat} {p : Str} (hne : p ≠ [])
    (hy : 'y' ∉ p) (hst : ∀ d ∈ p, readChar d = [d]) (hps : [] ∉ ps) : Errs [] (formatPiece .linked s ps i p) := by
  have hb : ∀ s v, v ≠ [] → 'y' ∉ v → (∀ d ∈ v, readChar d = [d]) → Errs [] (isBrivla .linked s v) := by
    intro s v h1 h2 h3
    have := clean_normal _ s v (Nat.le_refl _) h1 h2 h3
    unfold isBrivla
    split
    · exact .ok
    · exact .ok
    · rename_i e hne he
      have := this e he
      simp at this
      exact absurd this hne
  have h1 := fun s => hb s p hne hy hst
  have h2 : ∀ s, Errs [] (isBrivla .linked s (p ++ s%"a")) := fun s => by
    refine hb s _ (by simp) (by simpa using hy) ?_
    intro d hd
    rcases List.mem_append.1 hd with h | h
    · exact hst d h
    · simp only [List.mem_singleton] at h; subst h; decide
  unfold formatPiece
  dsimp only
  split
  · exact .ok
  · refine .bind (.ite (fun hi => .bind (idx_clean ?_) fun _ _ => .ok) fun _ => .ok) fun _ _ =>
      .bind (.ite (fun _ => h2 _) fun _ => .ok) fun _ _ => .ite (fun _ => .ok) fun _ => .bind (h1 _) fun _ _ =>
      .ite (fun _ => .ok) fun _ => .bind (.ite (fun _ => h2 _) fun _ => .ok) fun _ _ => .ite (fun _ => .ok) fun _ => .ok
    rw [List.getElem?_eq_getElem (by omega : i + 1 < ps.length)]
    refine List.length_pos_iff.2 fun h => hps ?_
    rw [← h]
    exact List.getElem_mem _

theorem selrafsiFrom_total {s : Settings} {ps : List Str} (hps : [] ∉ ps) : ∀ {l : List Str} {i : Nat},
    (∀ p ∈ l, Hyphen p ∨ 'y' ∉ p) → (∀ p ∈ l, ∀ d ∈ p, readChar d = [d]) → Errs [] (selrafsiFrom .linked s ps i l) := by
  intro l
  induction l with
  | nil => intro i _ _; exact .ok
  | cons p l ih =>
    intro i hy hst
    have ih' := fun i => ih (i := i) (fun q hq => hy q (by simp [hq])) (fun q hq => hst q (by simp [hq]))
    unfold selrafsiFrom
    refine .ite (fun _ => ih' _) fun hc => .bind (formatPiece_total ?_ ?_ (hst p (by simp)) hps) fun _ _ => .bind (ih' _) fun _ _ => .ok
    · rintro rfl; exact hc (by simp)
    rcases hy p (by simp) with h | h
    · exact absurd (by rw [hyphens_iff.2 h]; rfl) hc
    · exact h

/-- **C30.** With the import in place, `get_veljvo` returns a list exactly when `analyse_brivla` accepts the word as a
lujvo, an extended lujvo or a cmevla. -/
theorem C30_returns (s : Settings) (w : Str) :
    (∃ vs, getVeljvo .linked s w = .ok vs) ↔
      ∃ t ps, analyseBrivla .linked s w = .ok (t, ps) ∧ (t = .lujvo ∨ t = .extendedLujvo ∨ t = .cmevla) := by
  constructor
  · rintro ⟨vs, h⟩
    obtain ⟨t, ps, ha, h1, h2, -⟩ := C30_one_per_rafsi h
    exact ⟨t, ps, ha, by cases t <;> simp_all⟩
  · rintro ⟨t, ps, ha, ht⟩
    unfold getVeljvo
    rw [ha, ok_bind]
    dsimp only
    rw [if_neg (by rcases ht with rfl | rfl | rfl <;> simp)]
    obtain ⟨n, hn, hacc⟩ := analyseR_ok ha
    obtain ⟨-, rfl⟩ := normalise_ok hn
    have := selrafsiFrom_total (s := s) (C05_compounds ha ht).2.2.2.1 (l := ps) (i := 0) hacc.no_y (fun p hp d hd => by
      refine reading_chars (w := w) ?_
      rw [← hacc.join]
      exact List.mem_flatten.2 ⟨p, hp, hd⟩)
    unfold selrafsiList
    cases h : selrafsiFrom .linked s ps 0 ps with
    | ok vs => exact ⟨vs, rfl⟩
    | error e => exact absurd (this e h) (by simp)

/-- **C44.** With the import in place, `score_lujvo` returns a score exactly when `analyse_brivla` accepts the word as
a lujvo, an extended lujvo or a cmevla. -/
theorem C44_returns (s : Settings) (w : Str) :
    (∃ sc, scoreLujvo .linked s w = .ok sc) ↔
      ∃ t ps, analyseBrivla .linked s w = .ok (t, ps) ∧ (t = .lujvo ∨ t = .extendedLujvo ∨ t = .cmevla) := by
  rw [← C30_returns]
  constructor
  · rintro ⟨sc, h⟩
    obtain ⟨vs, hv, -⟩ := bind_ok h
    exact ⟨vs, hv⟩
  · rintro ⟨vs, h⟩
    obtain ⟨t, ps, ha, -⟩ := C30_one_per_rafsi h
    refine ⟨(ps.map pieceScore).sum - tiebreak w, ?_⟩
    unfold scoreLujvo
    rw [h, ok_bind, ha, ok_bind]

example : getVeljvo .linked {} s%"spageti'ylatkerlo" = .ok [s%"spageti", s%"mlatu", s%"kerlo"] ∧
    getVeljvo .linked {} s%"latmo'asyspag" = .ok [s%"latmo'as-", s%"spag-"] ∧
    scoreLujvo .linked {} s%"latkerlo" = .ok 7937 ∧ scoreLujvo .linked {} s%"klama" = .error .decomposition := by
  decide +kernel

end Jvotci
