import Verif.Lemmas.Make
import Verif.Lemmas.Layout
import Verif.Rafsi

/-!
# C59: the script that makes the rafsi dictionary

`root` is the export of the dictionary, `order` the order in which Python lists the members of a set.
-/

namespace Jvotci

open Spec

theorem shapeKey_score (x : Str) : shapeKey x = shapeScore x := by
  rw [shapeScore_tarmi]
  unfold shapeKey
  cases rafsiTarmi x <;> rfl

/-- **C59.** Every rafsi the script lists for a word is one the word is assigned, by the dictionary or as an exception, or one
that the notes of an entry for it mention and no word is assigned. -/
theorem C59_listed_rafsi {order : List Str → List Str} (ho : ∀ l, (order l).Perm l) {root : List Valsi} (h : OneEntryEach root)
    {w r : Str} {rs : List Str} (hw : (w, rs) ∈ makeRafsiList order root) (hr : r ∈ rs) :
    Assigned root w r ∨ (Proposed root w r ∧ ∀ w', ¬ Assigned root w' r) := by
  have hm := made h
  obtain ⟨s, hl, rfl⟩ := (mem_made hm).1 hw
  rw [List.mem_mergeSort, (ho s).mem_iff] at hr
  have hg : r ∈ dictGet (madeSets root) w := by rw [dictGet, hl]; exact hr
  rcases (hm.list w r).1 hg with ha | ⟨⟨v, -, he, rfl, hn, hk⟩, hna⟩
  · exact .inl ha
  · obtain ⟨text, h1, h2, h3⟩ := noteRafsi_sound hn hk
    exact .inr ⟨⟨v, he, rfl, text, h1, h2, h3⟩, hna⟩

theorem listed_of_get {order : List Str → List Str} (ho : ∀ l, (order l).Perm l) {root : List Valsi} (h : OneEntryEach root)
    {w r : Str} (hr : r ∈ dictGet (madeSets root) w) : ∃ rs, (w, rs) ∈ makeRafsiList order root ∧ r ∈ rs := by
  unfold dictGet at hr
  cases hl : (madeSets root).lookup w with
  | none => rw [hl] at hr; cases hr
  | some s =>
    rw [hl] at hr
    refine ⟨_, (mem_made (made h)).2 ⟨s, hl, rfl⟩, ?_⟩
    rw [List.mem_mergeSort, (ho s).mem_iff]
    exact hr

/-- **C59.** Every rafsi a word is assigned is listed for it. -/
theorem C59_assigned_rafsi {order : List Str → List Str} (ho : ∀ l, (order l).Perm l) {root : List Valsi} (h : OneEntryEach root)
    {w r : Str} (ha : Assigned root w r) : ∃ rs, (w, rs) ∈ makeRafsiList order root ∧ r ∈ rs :=
  listed_of_get ho h (((made h).list w r).2 (.inl ha))

/-- **C59.** A rafsi mentioned in the notes, set off from any other mention, and assigned to no word, is listed. -/
theorem C59_proposed_rafsi {order : List Str → List Str} (ho : ∀ l, (order l).Perm l) {root : List Valsi} (h : OneEntryEach root)
    {w r : Str} (hp : ProposedApart root w r) (hn : ∀ w', ¬ Assigned root w' r) :
    ∃ rs, (w, rs) ∈ makeRafsiList order root ∧ r ∈ rs := by
  obtain ⟨v, he, rfl, text, h1, h2, u, a, t, h3, h4, h5⟩ := hp
  obtain ⟨g1, g2⟩ := noteRafsi_complete h1 h2 h3 h4 h5
  exact listed_of_get ho h (((made h).list v.word r).2 (.inr ⟨⟨v, entry_mem he, he, rfl, g1, g2⟩, hn⟩))

/-- **C59.** The gismu are listed even if they have no rafsi; all other words have at least one. -/
theorem C59_listed_words {order : List Str → List Str} (ho : ∀ l, (order l).Perm l) {root : List Valsi} (h : OneEntryEach root) :
    (∀ v, GismuEntry root v → ∃ rs, (v.word, rs) ∈ makeRafsiList order root) ∧
    (∀ w, (w, []) ∈ makeRafsiList order root → ∃ v, GismuEntry root v ∧ v.word = w) := by
  have hm := made h
  constructor
  · intro v hv
    have hk := (hm.keys v.word).2 (.inl ⟨v, hv.1, rfl, hv⟩)
    cases hl : (madeSets root).lookup v.word with
    | none => exact absurd hl hk
    | some s => exact ⟨_, (mem_made hm).2 ⟨s, hl, rfl⟩⟩
  · intro w hw
    obtain ⟨s, hl, he⟩ := (mem_made hm).1 hw
    have hs : s = [] := by
      have h1 : (order s).length = 0 := by
        have := congrArg List.length he
        simpa using this.symm
      have := (ho s).length_eq
      exact List.eq_nil_of_length_eq_zero (by omega)
    rcases (hm.keys w).1 (by rw [hl]; simp) with ⟨v, -, rfl, hv⟩ | hne
    · exact ⟨v, hv, rfl⟩
    · exact absurd (by rw [dictGet, hl, hs]; rfl) hne

/-- **C59.** Every word is listed once, and its rafsi are listed once each, in the order of the CLL's scores for their shapes. -/
theorem C59_table {order : List Str → List Str} (ho : ∀ l, (order l).Perm l) {root : List Valsi} (h : OneEntryEach root) :
    ((makeRafsiList order root).map Prod.fst).Nodup ∧
    ∀ w rs, (w, rs) ∈ makeRafsiList order root → rs.Nodup ∧ rs.Pairwise (fun a b => shapeScore a ≤ shapeScore b) := by
  have hm := made h
  constructor
  · unfold makeRafsiList
    rw [List.map_map]
    exact hm.good.keys
  · intro w rs hw
    obtain ⟨s, hl, rfl⟩ := (mem_made hm).1 hw
    constructor
    · rw [(List.mergeSort_perm _ _).nodup_iff, (ho s).nodup_iff]
      exact hm.good.sets w s hl
    · have := List.pairwise_mergeSort (le := fun a b => decide (shapeKey a ≤ shapeKey b)) (by intro a b c; simp; omega)
        (by intro a b; simp; omega) (order s)
      refine this.imp ?_
      intro a b hab
      simpa [shapeKey_score] using hab

/-- **C59.** Two runs give the same words in the same order, with the same rafsi in an order that differs only among
rafsi whose shapes score the same. -/
theorem C59_reproducible {o₁ o₂ : List Str → List Str} (h₁ : ∀ l, (o₁ l).Perm l) (h₂ : ∀ l, (o₂ l).Perm l) {root : List Valsi}
    (h : OneEntryEach root) : (makeRafsiList o₁ root).map Prod.fst = (makeRafsiList o₂ root).map Prod.fst ∧
    ∀ w rs₁ rs₂, (w, rs₁) ∈ makeRafsiList o₁ root → (w, rs₂) ∈ makeRafsiList o₂ root →
      rs₁.Perm rs₂ ∧ rs₁.map shapeScore = rs₂.map shapeScore := by
  have hm := made h
  constructor
  · unfold makeRafsiList
    rw [List.map_map, List.map_map]
    rfl
  · intro w rs₁ rs₂ hw₁ hw₂
    have s1 := ((C59_table h₁ h).2 w rs₁ hw₁).2
    have s2 := ((C59_table h₂ h).2 w rs₂ hw₂).2
    obtain ⟨s, hl, rfl⟩ := (mem_made hm).1 hw₁
    obtain ⟨s', hl', rfl⟩ := (mem_made hm).1 hw₂
    rw [hl] at hl'
    cases hl'
    have hp : ((o₁ s).mergeSort (fun a b => shapeKey a ≤ shapeKey b)).Perm ((o₂ s).mergeSort (fun a b => shapeKey a ≤ shapeKey b)) :=
      (List.mergeSort_perm _ _).trans ((h₁ s).trans ((h₂ s).symm.trans (List.mergeSort_perm _ _).symm))
    refine ⟨hp, ?_⟩
    refine List.Perm.eq_of_pairwise (le := (· ≤ ·)) (by intro a b _ _; omega) ?_ ?_ (hp.map _)
    · rw [List.pairwise_map]; exact s1
    · rw [List.pairwise_map]; exact s2

/-- An export with a gismu, an experimental gismu that is close to it, one that is not, a cmavo and a lujvo. -/
def exampleRoot : List Valsi := [
  ⟨s%"klama", s%"gismu", [s%"kla"], none⟩,
  ⟨s%"klamu", s%"experimental gismu", [s%"kam"], none⟩,
  ⟨s%"gelse", s%"experimental gismu", [], some s%"Proposed rafsi: -gel- and -lse-. See also -kla-."⟩,
  ⟨s%"zucna", s%"experimental gismu", [], some s%"Its rafsi would be -zna- or -zu'a-"⟩,
  ⟨s%"ba'ei", s%"experimental cmavo", [], some s%"RAFSI -ba'e-!"⟩,
  ⟨s%"klama zei zdani", s%"lujvo", [s%"zda"], none⟩]

theorem example_sets : madeSets exampleRoot = [
    (s%"klama", [s%"kla"]), (s%"gelse", [s%"ge'e", s%"ges", s%"gel"]), (s%"zucna", [s%"zu'a"]), (s%"xi", [s%"xix"]),
    (s%"ditcu", [s%"dit"]), (s%"jidge", [s%"jid"]), (s%"ronci", [s%"roc"]), (s%"supso", [s%"sus"]), (s%"zai'e", [s%"zam"]),
    (s%"tsako", [s%"tso"]), (s%"kilma", [s%"kim"]), (s%"jicfo", [s%"cfo"]), (s%"fizbu", [s%"zbu"]), (s%"je'ebzi", [s%"jeb"]),
    (s%"mu'umgu", [s%"mug"]), (s%"va'arga", [s%"va'a"]), (s%"ba'ei", [s%"ba'e"])] := by decide +kernel

/-- `klamu` is skipped, `-lse-` and `-zna-` do not begin with an initial pair, `-kla-` is taken, and a lujvo is not listed. -/
example : (s%"gelse", [s%"ges", s%"gel", s%"ge'e"]) ∈ makeRafsiList id exampleRoot := by
  have h : (madeSets exampleRoot).lookup s%"gelse" = some [s%"ge'e", s%"ges", s%"gel"] := by rw [example_sets]; decide
  refine (mem_made (made (by decide +kernel))).2 ⟨_, h, ?_⟩
  have k1 : shapeKey s%"ge'e" = 6 := by decide
  have k2 : shapeKey s%"ges" = 5 := by decide
  have k3 : shapeKey s%"gel" = 5 := by decide
  simp [List.mergeSort, List.MergeSort.Internal.splitInTwo, k1, k2, k3, List.merge]

theorem listed_id {root : List Valsi} {w r : Str} {rs : List Str} (h : (w, rs) ∈ makeRafsiList id root) (hr : r ∈ rs) :
    ∃ s, (w, s) ∈ madeSets root ∧ r ∈ s := by
  obtain ⟨⟨w', s⟩, hm, e⟩ := List.mem_map.1 h
  cases e
  rw [List.mem_mergeSort] at hr
  exact ⟨s, hm, hr⟩

example : OneEntryEach exampleRoot := by decide +kernel

example : Assigned exampleRoot s%"klama" s%"kla" :=
  .inl ⟨⟨s%"klama", s%"gismu", [s%"kla"], none⟩, .inl ⟨by simp [exampleRoot], .inl rfl⟩, rfl, by simp⟩

example : ProposedApart exampleRoot s%"ba'ei" s%"ba'e" :=
  ⟨⟨s%"ba'ei", s%"experimental cmavo", [], some s%"RAFSI -ba'e-!"⟩, .inr ⟨by simp [exampleRoot], .inr rfl⟩, rfl, _, rfl, ⟨[], s%" -ba'e-!", rfl⟩,
    s%"RAFSI", ' ', s%"!", ⟨rfl, ⟨⟨'b', 'a', 'e', by decide, by decide, by decide, .inr rfl⟩, by
      intro a b t e hb
      cases e
      exact absurd hb (by decide)⟩, by
      intro z hz
      cases hz
      decide⟩, by decide, by decide⟩

/-- **C59, false variants.** If a word has two entries, a rafsi it is assigned may be missing: the second entry clears the
list. -/
theorem C59_false_two_entries : ∃ root w r, Assigned root w r ∧ ∀ rs, (w, rs) ∈ makeRafsiList id root → r ∉ rs := by
  let root : List Valsi := [⟨s%"klama", s%"gismu", [s%"kla"], none⟩, ⟨s%"klama", s%"gismu", [], none⟩]
  refine ⟨root, s%"klama", s%"kla", .inl ⟨⟨s%"klama", s%"gismu", [s%"kla"], none⟩, .inl ⟨by simp [root], .inl rfl⟩, rfl, by simp⟩, ?_⟩
  have : (madeSets root).all (fun e => e.1 != s%"klama" || !e.2.contains s%"kla") = true := by decide +kernel
  intro rs hm hr
  obtain ⟨s, hm, hr⟩ := listed_id hm hr
  have := List.all_eq_true.1 this _ hm
  simp [hr] at this

/-- **C59, false variants.** Of two mentions side by side only the first is found: the character between the hyphens is part
of the first match. -/
theorem C59_false_side_by_side : ∃ root w r, OneEntryEach root ∧ Proposed root w r ∧ (∀ w', ¬ Assigned root w' r) ∧
    ∀ rs, (w, rs) ∈ makeRafsiList id root → r ∉ rs := by
  let root : List Valsi := [⟨s%"zucna", s%"experimental gismu", [], some s%"rafsi: -zuc-/-zu'a-"⟩]
  refine ⟨root, s%"zucna", s%"zu'a", by decide +kernel, ?_, ?_, ?_⟩
  · refine ⟨_, .inl ⟨List.mem_cons_self, .inr ⟨rfl, ?_⟩⟩, rfl, _, rfl, ⟨[], s%": -zuc-/-zu'a-", rfl⟩, s%"rafsi: -zuc-", '/', [], rfl,
      ⟨⟨'z', 'u', 'a', by decide, by decide, by decide, .inr rfl⟩, ?_⟩, ?_⟩
    · intro g hg
      simp [root] at hg
      subst hg
      intro h; exact absurd h (by decide)
    · intro a b t e hb
      cases e
      exact absurd hb (by decide)
    · intro z hz
      cases hz
  · rintro w' (⟨v, hv, -, hr⟩ | ⟨rs, hm, hr⟩)
    · have := entry_mem hv
      simp [root] at this
      subst this
      cases hr
    · have : makeExceptions.all (fun e => !e.2.contains s%"zu'a") = true := by decide +kernel
      have := List.all_eq_true.1 this _ hm
      simp [hr] at this
  · have : (madeSets root).all (fun e => !e.2.contains s%"zu'a") = true := by decide +kernel
    intro rs hm hr
    obtain ⟨s, hm, hr⟩ := listed_id hm hr
    have := List.all_eq_true.1 this _ hm
    simp [hr] at this

/-- **C59, false variants.** The script does not see to it that a rafsi belongs to one word: if two entries propose the same
one, both get it. -/
theorem C59_false_shared : ∃ root w w' r rs rs', OneEntryEach root ∧ w ≠ w' ∧ (w, rs) ∈ makeRafsiList id root ∧
    (w', rs') ∈ makeRafsiList id root ∧ r ∈ rs ∧ r ∈ rs' := by
  let root : List Valsi := [⟨s%"zucna", s%"experimental gismu", [], some s%"rafsi: -zuc-"⟩,
    ⟨s%"zucmi", s%"experimental gismu", [], some s%"rafsi: -zuc-"⟩]
  have h : OneEntryEach root := by decide +kernel
  obtain ⟨rs, h1, h2⟩ := listed_of_get (order := id) (fun _ => List.Perm.refl _) h (w := s%"zucna") (r := s%"zuc") (by decide +kernel)
  obtain ⟨rs', h3, h4⟩ := listed_of_get (order := id) (fun _ => List.Perm.refl _) h (w := s%"zucmi") (r := s%"zuc") (by decide +kernel)
  exact ⟨root, s%"zucna", s%"zucmi", s%"zuc", rs, rs', h, by decide, h1, h3, h2, h4⟩

/-- **C59.** The dictionary at the pinned commit is as the script would leave it: no word twice, the exceptions are there,
and the rafsi of every word are in the order of the scores for their shapes. -/
theorem C59_pinned_table : (∀ w rs, (w, rs) ∈ makeExceptions → ∃ rs', (w, rs') ∈ RAFSI_LIST ∧ ∀ r ∈ rs, r ∈ rs') ∧
    ∀ w rs, (w, rs) ∈ RAFSI_LIST → rs.Nodup ∧ rs.Pairwise (fun a b => shapeScore a ≤ shapeScore b) := by
  constructor
  · have : makeExceptions.all (fun e => RAFSI_LIST.any (fun f => f.1 == e.1 && e.2.all (fun r => f.2.contains r))) = true := by
      decide +kernel
    intro w rs h
    have := List.all_eq_true.1 this _ h
    obtain ⟨⟨w', rs'⟩, hm, h⟩ := List.any_eq_true.1 this
    simp at h
    obtain ⟨rfl, h'⟩ := h
    exact ⟨rs', hm, h'⟩
  · have : RAFSI_LIST.all (fun e => decide (e.2.Nodup ∧ e.2.Pairwise (fun a b => shapeScore a ≤ shapeScore b))) = true := by
      decide +kernel
    intro w rs h
    simpa using List.all_eq_true.1 this _ h

end Jvotci
