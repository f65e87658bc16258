import Verif.Lemmas.JsSearch
import Verif.Lemmas.Back
import Verif.Lemmas.Exchange
import Verif.Lemmas.Depth

/-!
# The rafsi forms the search is given
-/

namespace Jvotci

open Spec

/-- The component is not an experimental rafsi. -/
def NoExp (b : Build) (s : Settings) (v : Str) : Prop :=
  s.expRafsi = false ∨ ∀ x, Dashed v x → Rafsi s.allowMz x ∨ ∃ t, WordType b s x t

theorem dashed_of {v : Str} (h1 : v.head? = some '-') (h2 : v.getLast? = some '-') (hol : isOnlyLojban (stripBoth (· == '-') v) = true) :
    Dashed v (stripBoth (· == '-') v) := by
  obtain ⟨a, t, e, ha, hb, hbne⟩ := stripBoth_split (p := (· == '-')) v
  generalize stripBoth (· == '-') v = x at hol e
  have hlet := isOnlyLojban_letters hol
  have hnd := letters_no_dash hlet
  have hne : x ≠ [] := by rintro rfl; simp [isOnlyLojban] at hol
  have htail : ∃ j, t = List.replicate (j + 1) '-' := by
    have hb' : t ≠ [] := by
      have hd := List.getLast?_eq_some_getLast hne
      refine hbne '-' h2 (by decide) ⟨x.getLast hne, ?_, ?_⟩
      · rw [e]; simp [getLast_mem hd]
      · have := letter_ne_dash (hlet _ (getLast_mem hd))
        simpa using this
    cases t with
    | nil => exact absurd rfl hb'
    | cons c t => exact ⟨t.length, all_dash hb⟩
  obtain ⟨j, rfl⟩ := htail
  rw [e] at h1
  obtain ⟨i, rfl⟩ := dashes_front ha hnd hne h1
  exact ⟨hnd, i, j, e⟩

/-- A rafsi of a component has a consonant, unless it is an experimental one, and at least three letters. -/
theorem usable_consonant {b : Build} {s : Settings} {f l : Bool} {v x : Str} {k : Kind} {os : List RafsiOpt}
    (h : rafsiListFor (program b) s f l v = .ok os) (hex : NoExp b s v) (hu : Usable b s v x k) :
    (∃ c ∈ x, Consonant c) ∧ 3 ≤ x.length := by
  obtain ⟨hw, hd⟩ := rafsiListFor_letters h
  have hraf : ∀ {mz : Bool} {x : Str}, Rafsi mz x → (∃ c ∈ x, Consonant c) ∧ 3 ≤ x.length := by
    intro mz x hr
    obtain ⟨a, b, t, rfl, -, ha⟩ := rafsi_double hr
    exact ⟨⟨a, by simp, ha⟩, (rafsi_length hr).1⟩
  have hgis : ∀ {x : Str}, (∀ c ∈ x, Vowel c ∨ Consonant c ∨ c = '\'') → WordType b s x .gismu → Gismu s.allowMz x := by
    rintro x hl ⟨ps, ha⟩
    have := (C03_gismu_iff.1 ha).2.1
    rwa [reading_letters hl] at this
  have hzih : ∀ {x : Str}, (∀ c ∈ x, Vowel c ∨ Consonant c ∨ c = '\'') → WordType b s x .zihevla →
      (∃ c ∈ x, Consonant c) ∧ 4 ≤ x.length := by
    intro x hl ha
    obtain ⟨h4, -, a, c, ⟨u, t, e⟩, hc, -⟩ := zihevla_facts ha
    rw [reading_letters hl] at h4 e
    exact ⟨⟨a, by rw [e]; simp, hc⟩, h4⟩
  cases hu with
  | listed _ hrs hx => exact hraf (isValidRafsi_iff.1 (table_shapes _ hrs _ hx).2)
  | stem hv hg e =>
    have := hgis (hw hv) hg
    rw [e] at this
    exact hraf (gismu_cut this).1
  | word hv hg =>
    rcases hg with hg | hg
    · exact hraf (.gismu (hgis (hw hv) hg))
    · exact (hzih (hw hv) hg).imp id fun h => by omega
  | rafsi _ hr _ => exact hraf hr
  | zihevla hdash _ ha => exact (hzih (hd (dashed_last hdash) x (dashed_strip hdash)).1 ha).imp id fun h => by omega
  | experimental hdash h0 h hno _ =>
    rcases hex with hex | hex
    · rw [hex] at h; cases h
    · rcases hex x hdash with hr | ⟨t, ht⟩
      · exact hraf hr
      · exact absurd ht (hno t)
  | cut e hnd hg _ =>
    obtain ⟨hlet, hne, hq⟩ := hd (cut_last e) x (cut_strip e hnd)
    have hlet' : ∀ c ∈ x ++ s%"a", Vowel c ∨ Consonant c ∨ c = '\'' := by
      intro c hc
      rcases List.mem_append.1 hc with hc | hc
      · exact hlet c hc
      · simp at hc; subst hc; exact .inl (by decide)
    rcases hg with hg | hg
    · exact hraf (gismu_cut (hgis hlet' hg)).1
    · obtain ⟨⟨c, hc, hcc⟩, h4⟩ := hzih hlet' hg
      refine ⟨⟨c, ?_, hcc⟩, by simp at h4; omega⟩
      rcases List.mem_append.1 hc with hc | hc
      · exact hc
      · simp at hc; subst hc; exact absurd hcc (by decide)

theorem later_form {b : Build} {s : Settings} {l : Bool} {v : Str} {os : List RafsiOpt} {o : RafsiOpt} {f : Bool}
    (h : rafsiListFor (program b) s f l v = .ok os) (hex : NoExp b s v) (ho : o ∈ os) : Later o.1 := by
  obtain ⟨z, hu, hw, rfl⟩ := (rafsiListFor_iff h).1 ho
  obtain ⟨⟨c, hc, hcc⟩, -⟩ := usable_consonant h hex hu
  have hcl := usable_clean h hu
  have hst := (usable_form h hu hw).1.strip
  obtain ⟨suf, e, ht⟩ := hw
  change Later z.text
  change stripHyphens z.text = _ at hst
  constructor
  · rw [Bool.eq_false_iff]
    intro hall
    rw [List.all_eq_true] at hall
    have := hall c (by rw [e]; simp [hc])
    revert this hcc
    simp only [List.contains_eq_mem, List.mem_cons, List.not_mem_nil, or_false, decide_eq_true_eq]
    intro h1 h2
    rcases h2 with rfl | rfl | rfl | rfl | rfl | rfl <;> revert h1 <;> decide
  · intro hh
    unfold tarmiIgnoringHyphen
    rw [hst]
    obtain ⟨d, hd, hdl⟩ := hcl.first
    obtain ⟨xs, hx⟩ : ∃ xs, z.rafsi = d :: xs := by
      cases hz : z.rafsi with
      | nil => rw [hz] at hd; cases hd
      | cons a t => rw [hz] at hd; cases hd; exact ⟨t, rfl⟩
    rw [hx] at e ⊢
    by_cases hv : f = false ∧ VowelInitial (d :: xs) ∧ ¬ Onglide (d :: xs)
    · exact tarmi_vowel hv.2.1
    · rw [e, leading, if_neg hv] at hh
      simp at hh
      subst hh
      exact absurd hdl (by decide)

theorem later_forms {b : Build} {s : Settings} {N : Nat} : ∀ {vs : List Str} {i : Nat} {ll : List (List RafsiOpt)}, (∀ v ∈ vs, NoExp b s v) →
    rafsiListListFrom (program b) s N i vs = .ok ll → ∀ l ∈ ll, ∀ r ∈ l, Later r.1 := by
  intro vs
  induction vs with
  | nil => intro i ll _ h; cases h; nofun
  | cons v vs ih =>
    intro i ll hex h l hl r hr
    unfold rafsiListListFrom at h
    obtain ⟨a, ha, h⟩ := bind_ok h
    obtain ⟨l', hl', h⟩ := bind_ok h
    cases h
    rcases List.mem_cons.1 hl with rfl | hl
    · exact later_form ha (hex v (List.mem_cons_self ..)) hr
    · exact ih (fun v hv => hex v (List.mem_cons_of_mem _ hv)) hl' l hl r hr

theorem represents_long {b : Build} {s : Settings} {N : Nat} : ∀ {vs : List Str} {i : Nat} {ll : List (List RafsiOpt)} {zs : List Slot}, (∀ v ∈ vs, NoExp b s v) →
    rafsiListListFrom (program b) s N i vs = .ok ll → Represents b s N i vs zs → ∀ z ∈ zs, 3 ≤ z.text.length := by
  intro vs
  induction vs with
  | nil => intro i ll zs _ _ h; cases h; nofun
  | cons v vs ih =>
    intro i ll zs hex h hr z hz
    unfold rafsiListListFrom at h
    obtain ⟨a, ha, h⟩ := bind_ok h
    obtain ⟨l, hl, h⟩ := bind_ok h
    cases hr with
    | cons hu hw hrest =>
      rcases List.mem_cons.1 hz with rfl | hz
      · obtain ⟨suf, e, -⟩ := hw
        have := (usable_consonant ha (hex v (List.mem_cons_self ..)) hu).2
        rw [e]
        simp only [List.length_append]
        omega
      · exact ih (fun v hv => hex v (List.mem_cons_of_mem _ hv)) hl hrest z hz

/-- A lujvo the search finds ends in a vowel and has at least six letters. -/
theorem search_long {b : Build} {s : Settings} {g : Bool} {vs : List Str} (hex : ∀ v ∈ vs, NoExp b s v) {ll : List (List RafsiOpt)} {best : Best}
    {r : Str × Int × List (Nat × Nat)} (hll : getRafsiListList (program b) s vs = .ok ll) (hbest : searchStages (combineOpts s g) ll = .ok best)
    (hr : pickBest g best = some r) : 6 ≤ r.1.length := by
  obtain ⟨⟨zs, h, hrep, hL, e, -⟩, -⟩ := search_built hll hbest hr
  obtain ⟨y, z, rest, rfl, -⟩ := hL.first
  have h1 := represents_long hex hll hrep y (by simp)
  have h2 := represents_long hex hll hrep z (by simp)
  rw [e]
  simp only [wordOf, List.map_cons, List.flatten_cons, List.length_append]
  omega

end Jvotci
