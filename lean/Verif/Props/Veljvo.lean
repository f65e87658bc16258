import Verif.Lemmas.NoY
import Verif.SpecVeljvo
import Verif.Props.Compounds
import Verif.Props.Termination

/-!
# C30: get_veljvo
-/

namespace Jvotci

open Spec

theorem lookup_isSome {β : Type} {g : Str} : ∀ {l : List (Str × β)}, (l.lookup g).isSome = true ↔ ∃ v, (g, v) ∈ l := by
  intro l
  induction l with
  | nil => simp
  | cons a l ih =>
    obtain ⟨k, v⟩ := a
    rw [List.lookup_cons]
    by_cases h : g = k
    · subst h; simp
    · have : (g == k) = false := by simpa using h
      rw [this]
      simp only [ih, List.mem_cons, Prod.mk.injEq, h, false_and, false_or]

theorem searchSelrafsi_some {r g : Str} (h : searchSelrafsi r = some g) : Selrafsi r g := by
  unfold searchSelrafsi at h
  dsimp only at h
  split at h
  · rename_i g' hf
    cases h
    have h1 := List.find?_some hf
    have h2 := List.mem_of_find?_eq_some hf
    obtain ⟨rs, hrs⟩ := lookup_isSome.1 h1
    split at h2
    · rename_i hc
      obtain ⟨u, hu, rfl⟩ := List.mem_map.1 h2
      refine .inr ⟨hc.2.1, ?_, hc.1, u, rs, ?_, rfl, hrs⟩
      · simpa using hc.2.2
      · simpa [Vowel] using hu
    · cases h2
  · rw [Option.map_eq_some_iff] at h
    obtain ⟨⟨w, rs⟩, hf, rfl⟩ := h
    refine .inl ⟨rs, List.mem_of_find?_eq_some hf, ?_⟩
    simpa using List.find?_some hf

theorem searchSelrafsi_none {r : Str} (h : searchSelrafsi r = none) (g : Str) : ¬ Selrafsi r g := by
  unfold searchSelrafsi at h
  dsimp only at h
  split at h
  · cases h
  · rename_i hf
    rw [Option.map_eq_none_iff, List.find?_eq_none] at h
    rintro (⟨rs, h1, h2⟩ | ⟨h1, h2, h3, v, rs, hv, rfl, h4⟩)
    · exact h _ h1 (by simpa using h2)
    · rw [if_pos ⟨h3, h1, by simpa using h2⟩, List.find?_eq_none] at hf
      exact hf (r ++ [v]) (List.mem_map.2 ⟨v, by simpa [Vowel] using hv, rfl⟩) (lookup_isSome.2 ⟨rs, h4⟩)

theorem formatPiece_ok {b : Build} {s : Settings} {ps : List Str} {i : Nat} {p a : Str}
    (h : formatPiece b s ps i p = .ok a) : Shown p a := by
  unfold formatPiece at h
  dsimp only at h
  split at h
  · rename_i g hg
    cases h
    exact .inl (searchSelrafsi_some hg)
  · rename_i hn
    refine .inr ⟨searchSelrafsi_none hn, ?_⟩
    obtain ⟨ny, -, h1⟩ := bind_ok h
    obtain ⟨y1, -, h2⟩ := bind_ok h1
    split at h2
    · cases h2; exact .inr (.inl rfl)
    · obtain ⟨y2, -, h3⟩ := bind_ok h2
      split at h3
      · cases h3; exact .inl rfl
      · obtain ⟨y3, -, h4⟩ := bind_ok h3
        split at h4
        · cases h4; exact .inr (.inl rfl)
        · cases h4; exact .inr (.inr rfl)

theorem hyphens_iff {p : Str} : HYPHENS.contains p = true ↔ Hyphen p := by
  simp [HYPHENS, Hyphen]

theorem selrafsiFrom_ok {b : Build} {s : Settings} {ps : List Str} : ∀ {l : List Str} {i : Nat} {r : List Str},
    selrafsiFrom b s ps i l = .ok r → [] ∉ l → All2 Shown (l.filter (fun p => ¬ Hyphen p)) r := by
  intro l
  induction l with
  | nil => intro i r h _; cases h; exact .nil
  | cons p l ih =>
    intro i r h hne
    simp only [List.mem_cons, not_or] at hne
    unfold selrafsiFrom at h
    split at h
    · rename_i hc
      have : Hyphen p := by
        rw [Bool.or_eq_true] at hc
        rcases hc with hc | hc
        · exact hyphens_iff.1 hc
        · exact absurd (by simpa using hc) (Ne.symm hne.1)
      rw [List.filter_cons_of_neg (by simpa using this)]
      exact ih h hne.2
    · rename_i hc
      have : ¬ Hyphen p := by
        intro hh
        exact hc (by rw [hyphens_iff.2 hh]; rfl)
      obtain ⟨a, ha, h1⟩ := bind_ok h
      obtain ⟨r', hr, h2⟩ := bind_ok h1
      cases h2
      rw [List.filter_cons_of_pos (by simpa using this)]
      exact .cons (formatPiece_ok ha) (ih hr hne.2)

/-- **C30.** When `get_veljvo` returns, its list has one entry for each piece that is not a hyphen, in order: the
word the piece stands for or, if there is none, the piece itself. -/
theorem C30_one_per_rafsi {b : Build} {s : Settings} {w : Str} {vs : List Str} (h : getVeljvo b s w = .ok vs) :
    ∃ t ps, analyseBrivla b s w = .ok (t, ps) ∧ t ≠ .gismu ∧ t ≠ .zihevla ∧
      All2 Shown (ps.filter (fun p => ¬ Hyphen p)) vs := by
  obtain ⟨⟨t, ps⟩, ha, h1⟩ := bind_ok h
  dsimp only at h1
  split at h1
  · cases h1
  · rename_i ht
    simp only [not_or] at ht
    have h0 := (C05_compounds ha (by cases t <;> simp_all)).2.2.2.1
    exact ⟨t, ps, ha, ht.1, ht.2, selrafsiFrom_ok h1 h0⟩

example : getVeljvo .linked {} s%"latmotkelrykerlo" = .ok [s%"mlatu", s%"-mot-", s%"kelr-", s%"kerlo"] ∧
    analyseBrivla .linked {} s%"latmotkelrykerlo" = .ok (.lujvo, [s%"lat", s%"mot", s%"kelr", s%"y", s%"kerlo"]) := by
  decide +kernel

theorem Errs.append {E E' : List Err} : (∀ e ∈ E, e ∈ E ++ E') ∧ (∀ e ∈ E', e ∈ E ++ E') := by
  constructor <;> intro e h <;> simp [h]

theorem formatPiece_plain {b : Build} {s : Settings} {ps : List Str} {i : Nat} {p : Str}
    (hy : 'y' ∉ p) (hst : ∀ d ∈ p, readChar d = [d]) : Errs ([.index] ++ nameErrs b) (formatPiece b s ps i p) := by
  have h1 : ∀ s, Errs ([.index] ++ nameErrs b) (isBrivla b s p) := fun s => plain_isBrivla hy hst
  have h2 : ∀ s, Errs ([.index] ++ nameErrs b) (isBrivla b s (p ++ s%"a")) := fun s => by
    refine plain_isBrivla (by simpa using hy) ?_
    intro d hd
    rcases List.mem_append.1 hd with h | h
    · exact hst d h
    · simp only [List.mem_singleton] at h; subst h; decide
  unfold formatPiece
  dsimp only
  split
  · exact .ok
  · refine .bind (.ite (fun _ => .bind (errs_idx (by simp) _ _) fun _ _ => .ok) fun _ => .ok) fun _ _ =>
      .bind (.ite (fun _ => h2 _) fun _ => .ok) fun _ _ => .ite (fun _ => .ok) fun _ => .bind (h1 _) fun _ _ =>
      .ite (fun _ => .ok) fun _ => .bind (.ite (fun _ => h2 _) fun _ => .ok) fun _ _ => .ite (fun _ => .ok) fun _ => .ok

theorem selrafsiFrom_plain {b : Build} {s : Settings} {ps : List Str} : ∀ {l : List Str} {i : Nat},
    (∀ p ∈ l, Hyphen p ∨ 'y' ∉ p) → (∀ p ∈ l, ∀ d ∈ p, readChar d = [d]) →
    Errs ([.index] ++ nameErrs b) (selrafsiFrom b s ps i l) := by
  intro l
  induction l with
  | nil => intro i _ _; exact .ok
  | cons p l ih =>
    intro i hy hst
    have ih' := fun i => ih (i := i) (fun q hq => hy q (by simp [hq])) (fun q hq => hst q (by simp [hq]))
    unfold selrafsiFrom
    refine .ite (fun _ => ih' _) fun hc => .bind (formatPiece_plain ?_ (hst p (by simp))) fun _ _ => .bind (ih' _) fun _ _ => .ok
    rcases hy p (by simp) with h | h
    · exact absurd (by rw [hyphens_iff.2 h]; rfl) hc
    · exact h

/-- **C30.** `get_veljvo` raises `DecompositionError` exactly when `analyse_brivla` returns `GISMU` or `ZIhEVLA`, or
raises `DecompositionError` itself. -/
theorem C30_decomposition_error (b : Build) (s : Settings) (w : Str) :
    getVeljvo b s w = .error .decomposition ↔
      analyseBrivla b s w = .error .decomposition ∨
      ∃ t ps, analyseBrivla b s w = .ok (t, ps) ∧ (t = .gismu ∨ t = .zihevla) := by
  unfold getVeljvo
  cases ha : analyseBrivla b s w with
  | error e => 
    rw [error_bind]
    simp
  | ok r =>
    obtain ⟨t, ps⟩ := r
    rw [ok_bind]
    dsimp only
    constructor
    · intro h
      right
      refine ⟨t, ps, rfl, ?_⟩
      split at h
      · rename_i ht; exact ht
      · exfalso
        obtain ⟨n, hn, hacc⟩ := analyseR_ok ha
        obtain ⟨-, rfl⟩ := normalise_ok hn
        have := selrafsiFrom_plain (b := b) (s := s) (ps := ps) (i := 0) hacc.no_y (fun p hp d hd => by
          refine reading_chars (w := w) ?_
          rw [← hacc.join]
          exact List.mem_flatten.2 ⟨p, hp, hd⟩) _ h
        cases b <;> simp [nameErrs] at this
    · rintro (h | ⟨t', ps', h, ht⟩)
      · cases h
      · cases h
        rw [if_pos ht]

example : getVeljvo .linked {} s%"mlatu" = .error .decomposition ∧ getVeljvo .linked {} s%"spageti" = .error .decomposition ∧
    getVeljvo .linked {} s%"laty'aoa" = .error .decomposition ∧ getVeljvo .linked {} s%"pasmabru" = .error .notBrivla := by
  decide +kernel

end Jvotci
