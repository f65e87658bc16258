import Verif.Lemmas.Zih

/-!
# Helper lemmas: the rafsi forms of a component
-/

namespace Jvotci

open Spec

/-- Begins and ends with a vowel or consonant, and has no `y`. -/
structure Clean (x : Str) : Prop where
  first : ∃ c, x.head? = some c ∧ (Vowel c ∨ Consonant c)
  last : ∃ c, x.getLast? = some c ∧ (Vowel c ∨ Consonant c)
  letters : ∀ c ∈ x, Vowel c ∨ Consonant c ∨ c = '\''

/-- Has two consonants in a row. -/
def Clustered (x : Str) : Prop := ∃ a b, Adjacent x a b ∧ Consonant a ∧ Consonant b

/-- What is put before a form. -/
def prefixOf (f : Bool) (x : Str) : Str :=
  if f = false ∧ (∃ c, x.head? = some c ∧ isVowel c = true) ∧ isGlide x = false then s%"'" else []

/-- The forms of the rafsi `x`: what is put behind it, and the number of consonants recorded. -/
inductive FormKind (s : Settings) (f l : Bool) (x : Str) : Str → Nat → Prop
  | cvv {suf} : rafsiTarmi x = .cvv ∨ rafsiTarmi x = .cvhv →
      (suf = [] ∨ suf = s%"'" ∧ f = true ∨ suf = s%"'y" ∧ f = false ∧ l = false) →
      FormKind s f l x suf (if s.consonants = .cluster then 0 else 1)
  | ccv {suf} : rafsiTarmi x = .ccv → (suf = [] ∨ suf = s%"'y") → FormKind s f l x suf 2
  | cvc {suf} : rafsiTarmi x = .cvc → (suf = [] ∨ suf = s%"y" ∧ l = false) → FormKind s f l x suf 2
  | short {suf} : 3 ≤ x.length → Clustered x →
      (suf = s%"y" ∧ l = false ∨ suf = [] ∧ l = true ∧ ∃ c, x.getLast? = some c ∧ Consonant c) → FormKind s f l x suf 2
  | long {suf} : 4 ≤ x.length → Clustered x → (suf = s%"'y" ∧ l = false ∨ suf = [] ∧ l = true) →
      (∃ c, x.getLast? = some c ∧ Vowel c) → FormKind s f l x suf 2
  | exp {suf n} : rafsiTarmi x = .other → ¬ Clustered x → s.expRafsi = true →
      (suf = [] ∧ l = true ∨ suf = s%"'y" ∧ l = false ∧ f = false ∨ suf = s%"'" ∧ l = false ∧ f = true) →
      (s.consonants = .cluster → n = 0) → n ≤ 1 → (∃ c, x.getLast? = some c ∧ Vowel c) → FormKind s f l x suf n

/-- `o` is a form of the rafsi `x`. -/
def Form (s : Settings) (f l : Bool) (x : Str) (o : RafsiOpt) : Prop :=
  Clean x ∧ ∃ suf, FormKind s f l x suf o.2 ∧ o.1 = prefixOf f x ++ x ++ suf

/-! ## Where the forms come from -/

theorem isOnlyLojban_letters {x : Str} (h : isOnlyLojban x = true) : ∀ c ∈ x, Vowel c ∨ Consonant c ∨ c = '\'' := by
  simp only [isOnlyLojban, Bool.and_eq_true, List.all_eq_true] at h
  intro c hc
  have := h.2 c hc
  simp only [List.contains_eq_mem, List.mem_cons, List.not_mem_nil, or_false, decide_eq_true_eq] at this
  rcases this with rfl|rfl|rfl|rfl|rfl|rfl|rfl|rfl|rfl|rfl|rfl|rfl|rfl|rfl|rfl|rfl|rfl|rfl|rfl|rfl|rfl|rfl|rfl <;> decide

theorem readChar_letter {c : Char} (h : Vowel c ∨ Consonant c ∨ c = '\'') : readChar c = [c] ∧ c ≠ '.' := by
  have hm : c ∈ s%"aeioubcdfgjklmnprstvxz'" := by
    simp only [Vowel, Consonant, List.mem_cons, List.not_mem_nil, or_false] at h ⊢
    grind
  have key : ∀ c ∈ s%"aeioubcdfgjklmnprstvxz'", readChar c = [c] ∧ c ≠ '.' := by decide
  exact key c hm

theorem reading_letters {x : Str} (h : ∀ c ∈ x, Vowel c ∨ Consonant c ∨ c = '\'') : reading x = x := by
  have hf := flatMap_readChar_stable (fun d hd => (readChar_letter (h d hd)).1)
  unfold reading
  split
  · exact absurd rfl (readChar_letter (h '.' (by simp))).2
  · exact hf

theorem Clean.of_rafsi {mz : Bool} {x : Str} (h : Rafsi mz x) : Clean x := by
  refine ⟨?_, ?_, rafsi_letters h⟩
  · obtain ⟨a, t, rfl, ha⟩ := rafsi_first h
    exact ⟨a, rfl, .inr ((isConsonant_iff _).1 ha)⟩
  · obtain ⟨t, l, rfl, hl⟩ := rafsi_last h
    exact ⟨l, by simp, hl⟩

theorem Clean.ne {x : Str} (h : Clean x) : x ≠ [] := by
  rintro rfl; obtain ⟨c, h, -⟩ := h.first; cases h

theorem clean_of_wf {mz : Bool} {x : Str} (h : WF mz x) (hy : ∀ c ∈ x, c ≠ 'y') (h1 : x.head? ≠ some '\'')
    (h2 : x.getLast? ≠ some '\'') (hx : x ≠ []) : Clean x := by
  have hl : ∀ c ∈ x, Vowel c ∨ Consonant c ∨ c = '\'' := by
    intro c hc
    rcases h.letters c hc with h | h | h | h
    · exact .inl h
    · exact .inr (.inl h)
    · exact .inr (.inr h)
    · exact absurd h (hy c hc)
  refine ⟨?_, ?_, hl⟩
  · cases x with
    | nil => exact absurd rfl hx
    | cons a x =>
      refine ⟨a, rfl, ?_⟩
      rcases hl a (by simp) with h | h | h
      · exact .inl h
      · exact .inr h
      · subst h; exact absurd rfl h1
  · refine ⟨x.getLast hx, List.getLast?_eq_some_getLast hx, ?_⟩
    rcases hl _ (List.getLast_mem hx) with h | h | h
    · exact .inl h
    · exact .inr h
    · rw [List.getLast?_eq_some_getLast hx, h] at h2; exact absurd rfl h2

theorem gismu_clustered {mz : Bool} {x : Str} (h : Gismu mz x) : Clustered x := by
  cases h with
  | @cvccv a b c d e _ _ h _ => exact ⟨c, d, ⟨[a, b], [e], rfl⟩, h.1, h.2.1⟩
  | @ccvcv a b c d e h _ _ _ => exact ⟨a, b, ⟨[], [c, d, e], rfl⟩, (initial_consonants h).1, (initial_consonants h).2⟩

theorem firstCluster_clustered {v u ch t : Str} (h : FirstCluster v u ch t) : Clustered v := by
  have hc := h.consonants
  have hl := h.long
  match ch, hc, hl, h.eq with
  | a :: b :: ch', hc, _, e => exact ⟨a, b, ⟨u, ch' ++ t, by simp [e]⟩, hc a (by simp), hc b (by simp)⟩

/-- What an accepted gismu or zi'evla looks like. -/
theorem accepted_clean {R : Rec} {s : Settings} {w : Str} {t : BType} {ps : List Str} (h : Accepts R s w t ps)
    (ht : t = .gismu ∨ t = .zihevla) :
    Clean w ∧ Clustered w ∧ 4 ≤ w.length ∧ ∃ c, w.getLast? = some c ∧ Vowel c := by
  have he := h.ends
  have hw := h.wf.1
  cases h with
  | gismu hl hv hg =>
    rw [isGismu_iff] at hg
    refine ⟨.of_rafsi (.gismu hg), gismu_clustered hg, ?_, _, hl, (isVowel_iff _).1 hv⟩
    cases hg <;> simp
  | kaha => split at ht <;> simp at ht
  | parts => split at ht <;> simp at ht
  | @zihevla l e sh hl hv _ _ _ hy hz =>
    obtain ⟨h4, -, hcl, hr⟩ := checkZihevlaOrRafsi_shape hz
    have hsh : sh = .zihevla := by
      cases sh with
      | zihevla => rfl
      | rafsi => have := (hr rfl).1; cases this
    obtain ⟨u, ch, t, hf⟩ := hcl hsh
    refine ⟨clean_of_wf hw (fun c hc e => hy (e ▸ hc)) he.1 he.2 (by rintro rfl; simp at hl), firstCluster_clustered hf,
      h4 rfl, l, hl, (isVowel_iff _).1 hv⟩

theorem analyse_clean {b : Build} {s : Settings} {w : Str} {t : BType} {ps : List Str}
    (h : (program b).analyse s w = .ok (t, ps)) (hw : ∀ c ∈ w, Vowel c ∨ Consonant c ∨ c = '\'')
    (ht : t = .gismu ∨ t = .zihevla) :
    Clean w ∧ Clustered w ∧ 4 ≤ w.length ∧ ∃ c, w.getLast? = some c ∧ Vowel c := by
  obtain ⟨n, hn, ha⟩ := analyseR_ok (R := recN b (budget w.length)) (by rw [program_analyse] at h; exact h)
  obtain ⟨-, rfl⟩ := normalise_ok hn
  rw [reading_letters hw] at ha
  exact accepted_clean ha ht

theorem apostrophise_ok {f : Bool} {x r : Str} (h : apostrophise f x = .ok r) : r = prefixOf f x ++ x := by
  unfold apostrophise at h
  unfold prefixOf
  cases f with
  | true => simp at h ⊢; exact h.symm
  | false =>
    simp only [Bool.false_eq_true, if_false] at h
    obtain ⟨c, hc, h⟩ := bind_ok h
    have hc := idx_ok hc
    cases x with
    | nil => simp at hc
    | cons a x =>
      simp at hc; subst hc
      split at h
      · rename_i h1
        simp at h1
        cases h
        simp [h1]
      · rename_i h1
        cases h
        rw [if_neg]
        · rfl
        · rintro ⟨-, ⟨c, hc, hv⟩, hg⟩
          simp at hc; subst hc
          simp [hv, hg] at h1

/-- What a rafsi of the given type looks like. -/
def TypeOk (s : Settings) (x : Str) : RType → Prop
  | .shortBrivla => 3 ≤ x.length ∧ Clustered x
  | .longBrivla => 4 ≤ x.length ∧ Clustered x ∧ ∃ c, x.getLast? = some c ∧ Vowel c
  | .experimental => rafsiTarmi x = .other ∧ ¬ Clustered x ∧ s.expRafsi = true ∧ ∃ c, x.getLast? = some c ∧ Vowel c
  | .tarmi t => rafsiTarmi x = t

/-- The rafsi of a component, each with the form the list has for it. -/
theorem getRafsiForRafsi_form {s : Settings} {f l : Bool} {x : Str} {t : RType} {os : List RafsiOpt} {o : RafsiOpt}
    (h : getRafsiForRafsi x t f l s.consonants s.glides = .ok os) (ho : o ∈ os) (hx : Clean x)
    (ht : TypeOk s x t) : Form s f l x o := by
  refine ⟨hx, ?_⟩
  unfold getRafsiForRafsi at h
  obtain ⟨r, hr, h⟩ := bind_ok h
  obtain rfl := apostrophise_ok hr
  have hlast : ∀ c, idxLast (prefixOf f x ++ x) = .ok c → x.getLast? = some c := by
    intro c hc
    have := idxLast_ok hc
    rwa [getLast?_append_ne _ hx.ne] at this
  have hsh : ∀ (hlen : 3 ≤ x.length) (hcl : Clustered x),
      (if !l then Except.ok [(prefixOf f x ++ x ++ s%"y", 2)]
        else do
          let l ← idxLast (prefixOf f x ++ x)
          if !isVowel l then .ok [(prefixOf f x ++ x, 2)] else .ok []) = Except.ok (ε := Err) os →
      ∃ suf, FormKind s f l x suf o.2 ∧ o.1 = prefixOf f x ++ x ++ suf := by
    intro hlen hcl h
    split at h
    · rename_i hl
      cases h
      obtain rfl : o = _ := by simpa using ho
      exact ⟨s%"y", .short hlen hcl (.inl ⟨rfl, by simpa using hl⟩), by simp⟩
    · rename_i hl
      obtain ⟨c, hc, h⟩ := bind_ok h
      split at h
      · rename_i hv
        cases h
        obtain rfl : o = _ := by simpa using ho
        refine ⟨[], .short hlen hcl (.inr ⟨rfl, by simpa using hl, c, hlast c hc, ?_⟩), by simp⟩
        obtain ⟨d, hd, hd'⟩ := hx.last
        rw [hlast c hc] at hd
        cases hd
        have hv : isVowel c = false := by simpa using hv
        rw [isVowel_false] at hv
        exact hd'.resolve_left hv
      · cases h; cases ho
  have hlg : ∀ (hlen : 4 ≤ x.length) (hcl : Clustered x) (hv : ∃ c, x.getLast? = some c ∧ Vowel c),
      (if l then Except.ok [(prefixOf f x ++ x, 2)] else .ok [(prefixOf f x ++ x ++ s%"'y", 2)]) = Except.ok (ε := Err) os →
      ∃ suf, FormKind s f l x suf o.2 ∧ o.1 = prefixOf f x ++ x ++ suf := by
    intro hlen hcl hv h
    split at h
    · rename_i hl
      cases h
      obtain rfl : o = _ := by simpa using ho
      exact ⟨[], .long hlen hcl (.inr ⟨rfl, hl⟩) hv, by simp⟩
    · rename_i hl
      cases h
      obtain rfl : o = _ := by simpa using ho
      exact ⟨_, .long hlen hcl (.inl ⟨rfl, by simpa using hl⟩) hv, by simp⟩
  have hvv : (rafsiTarmi x = .cvv ∨ rafsiTarmi x = .cvhv) →
      (let n := if s.consonants = .cluster then 0 else 1
      if f then Except.ok [(prefixOf f x ++ x ++ s%"'", n), (prefixOf f x ++ x, n)]
      else if !l then .ok [(prefixOf f x ++ x ++ s%"'y", n), (prefixOf f x ++ x, n)]
      else .ok [(prefixOf f x ++ x, n)]) = Except.ok (ε := Err) os →
      ∃ suf, FormKind s f l x suf o.2 ∧ o.1 = prefixOf f x ++ x ++ suf := by
    intro ht' h
    dsimp only at h
    split at h
    · rename_i hf
      cases h
      simp only [List.mem_cons, List.not_mem_nil, or_false] at ho
      rcases ho with rfl | rfl
      · exact ⟨_, .cvv ht' (.inr (.inl ⟨rfl, hf⟩)), by simp⟩
      · exact ⟨[], .cvv ht' (.inl rfl), by simp⟩
    · rename_i hf
      split at h
      · rename_i hl
        cases h
        simp only [List.mem_cons, List.not_mem_nil, or_false] at ho
        rcases ho with rfl | rfl
        · exact ⟨_, .cvv ht' (.inr (.inr ⟨rfl, by simpa using hf, by simpa using hl⟩)), by simp⟩
        · exact ⟨[], .cvv ht' (.inl rfl), by simp⟩
      · cases h
        obtain rfl : o = _ := by simpa using ho
        exact ⟨[], .cvv ht' (.inl rfl), by simp⟩
  have adj : ∀ {a b : Char} {u v : Str}, x = u ++ a :: b :: v → isConsonant a = true → isConsonant b = true → Clustered x :=
    fun {a b u v} e ha hb => ⟨a, b, ⟨u, v, e⟩, (isConsonant_iff _).1 ha, (isConsonant_iff _).1 hb⟩
  split at h
  · exact hsh ht.1 ht.2 h
  · obtain ⟨a, b, c, d, e, h1, h2, h3, h4⟩ := tarmi_ccvc.1 ht
    exact hsh (by simp [e]) (adj (u := []) e h1 h2) h
  · obtain ⟨a, b, c, d, e, h1, h2, h3, h4⟩ := tarmi_cvcc.1 ht
    exact hsh (by simp [e]) (adj (u := [a, b]) (v := []) e h3 h4) h
  · exact hlg ht.1 ht.2.1 ht.2.2 h
  · obtain ⟨a, b, c, d, g, e, h1, h2, h3, h4, h5⟩ := tarmi_ccvcv.1 ht
    exact hlg (by simp [e]) (adj (u := []) e h1 h2) ⟨g, by simp [e], (isVowel_iff _).1 h5⟩ h
  · obtain ⟨a, b, c, d, g, e, h1, h2, h3, h4, h5⟩ := tarmi_cvccv.1 ht
    exact hlg (by simp [e]) (adj (u := [a, b]) e h3 h4) ⟨g, by simp [e], (isVowel_iff _).1 h5⟩ h
  · obtain ⟨ht, hcl, hex, hlv⟩ := ht
    obtain ⟨n, hn, h⟩ : ∃ n, ((s.consonants = .cluster → n = 0) ∧ n ≤ 1) ∧
        (if l then Except.ok [(prefixOf f x ++ x, n)]
        else if !f then .ok [(prefixOf f x ++ x ++ s%"'y", n)]
        else .ok [(prefixOf f x ++ x ++ s%"'", n)]) = Except.ok (ε := Err) os := by
      dsimp only at h
      by_cases hc : s.consonants ≠ .cluster
      · rw [if_pos hc] at h
        obtain ⟨c, -, h⟩ := bind_ok h
        split at h
        · exact ⟨1, ⟨fun e => absurd e hc, by omega⟩, h⟩
        · exact ⟨0, ⟨fun e => rfl, by omega⟩, h⟩
      · rw [if_neg hc] at h
        exact ⟨0, ⟨fun e => rfl, by omega⟩, h⟩
    split at h
    · rename_i hl
      cases h
      obtain rfl : o = _ := by simpa using ho
      exact ⟨[], .exp ht hcl hex (.inl ⟨rfl, hl⟩) hn.1 hn.2 hlv, by simp⟩
    · rename_i hl
      split at h
      · rename_i hf
        cases h
        obtain rfl : o = _ := by simpa using ho
        exact ⟨_, .exp ht hcl hex (.inr (.inl ⟨rfl, by simpa using hl, by simpa using hf⟩)) hn.1 hn.2 hlv, by simp⟩
      · rename_i hf
        cases h
        obtain rfl : o = _ := by simpa using ho
        exact ⟨_, .exp ht hcl hex (.inr (.inr ⟨rfl, by simpa using hl, by simpa using hf⟩)) hn.1 hn.2 hlv, by simp⟩
  · exact hvv (.inl ht) h
  · exact hvv (.inr ht) h
  · cases h
    simp only [List.mem_cons, List.not_mem_nil, or_false] at ho
    rcases ho with rfl | rfl
    · exact ⟨[], .ccv ht (.inl rfl), by simp⟩
    · exact ⟨_, .ccv ht (.inr rfl), rfl⟩
  · split at h
    · rename_i hl
      cases h
      simp only [List.mem_cons, List.not_mem_nil, or_false] at ho
      rcases ho with rfl | rfl
      · exact ⟨[], .cvc ht (.inl rfl), by simp⟩
      · exact ⟨_, .cvc ht (.inr ⟨rfl, by simpa using hl⟩), rfl⟩
    · cases h
      obtain rfl : o = _ := by simpa using ho
      exact ⟨[], .cvc ht (.inl rfl), by simp⟩
  · cases h
  · cases h

/-! ## The forms of a component -/

theorem dropLastN_one_append {w : Str} {c : Char} (h : w.getLast? = some c) : w = dropLastN w 1 ++ [c] := by
  obtain ⟨u, rfl⟩ := List.getLast?_eq_some_iff.1 h
  unfold dropLastN
  simp

theorem clustered_append_vowel {x : Str} {c : Char} (h : Clustered (x ++ [c])) (hc : Vowel c) : Clustered x := by
  obtain ⟨a, b, ⟨u, v, e⟩, ha, hb⟩ := h
  cases hv : v.getLast? with
  | none =>
    rw [List.getLast?_eq_none_iff] at hv
    subst hv
    have : (x ++ [c]).getLast? = some b := by rw [e]; simp
    simp at this
    subst this
    exact absurd hb (vowel_not_consonant hc)
  | some d =>
    obtain ⟨v', rfl⟩ := List.getLast?_eq_some_iff.1 hv
    have e' : x ++ [c] = (u ++ a :: b :: v') ++ [d] := by rw [e]; simp
    obtain ⟨e', -⟩ := List.append_inj' e' rfl
    exact ⟨a, b, ⟨u, v', e'⟩, ha, hb⟩

theorem clean_append_vowel {x : Str} {c : Char} (h : Clean (x ++ [c])) (hx : x ≠ []) (hq : x.getLast? ≠ some '\'') : Clean x := by
  refine ⟨?_, ?_, fun d hd => h.letters d (by simp [hd])⟩
  · obtain ⟨d, hd, h2⟩ := h.first
    refine ⟨d, ?_, h2⟩
    cases x with
    | nil => exact absurd rfl hx
    | cons a x => simpa using hd
  · refine ⟨x.getLast hx, List.getLast?_eq_some_getLast hx, ?_⟩
    rcases h.letters (x.getLast hx) (by simp) with h | h | h
    · exact .inl h
    · exact .inr h
    · rw [List.getLast?_eq_some_getLast hx, h] at hq; exact absurd rfl hq

theorem rafsiListTable_mem {s : Settings} {f l : Bool} {o : RafsiOpt} : ∀ {rs : List Str} {os : List RafsiOpt},
    rafsiListTable s f l rs = .ok os → o ∈ os →
    ∃ r ∈ rs, ∃ os', getRafsiForRafsi r (.tarmi (rafsiTarmi r)) f l s.consonants s.glides = .ok os' ∧ o ∈ os' := by
  intro rs
  induction rs with
  | nil => intro os h ho; cases h; cases ho
  | cons r rs ih =>
    intro os h ho
    unfold rafsiListTable at h
    split at h
    · obtain ⟨r', hr, h⟩ := ih h ho
      exact ⟨r', by simp [hr], h⟩
    · obtain ⟨a, ha, h⟩ := bind_ok h
      obtain ⟨b, hb, h⟩ := bind_ok h
      cases h
      rcases List.mem_append.1 ho with ho | ho
      · exact ⟨r, by simp, a, ha, ho⟩
      · obtain ⟨r', hr, h⟩ := ih hb ho
        exact ⟨r', by simp [hr], h⟩

theorem rafsiListRafsi_form {b : Build} {s : Settings} {f l : Bool} {x : Str} {os : List RafsiOpt} {o : RafsiOpt}
    (h : rafsiListRafsi (program b) s f l x = .ok os) (ho : o ∈ os)
    (hx : ∀ c ∈ x, Vowel c ∨ Consonant c ∨ c = '\'') : Form s f l x o := by
  unfold rafsiListRafsi at h
  dsimp only at h
  split at h
  · rename_i ht
    obtain ⟨t, hk, h⟩ := bind_ok h
    unfold rafsiKind at hk
    split at hk
    · rename_i bt ps ha
      split at hk
      · rename_i hz
        cases hk
        obtain ⟨h1, h2, h3, h4⟩ := analyse_clean ha hx (.inr hz)
        exact getRafsiForRafsi_form h ho h1 ⟨h3, h2, h4⟩
      · cases hk
    · split at hk
      · rename_i hex
        split at hk <;> cases hk
        rename_i hz
        obtain ⟨w1, -, w3, w4, w5⟩ := checkZihevlaOrRafsi_wf hz
        obtain ⟨-, -, -, hr⟩ := checkZihevlaOrRafsi_shape hz
        obtain ⟨-, hn, -, c, hc, -⟩ := hr rfl
        have hcl : Clean x := clean_of_wf w1 w3 w4 w5 (by rintro rfl; cases hc)
        refine getRafsiForRafsi_form h ho hcl ⟨ht, ?_, hex, ?_⟩
        · rintro ⟨a, b, hab, ha, hb⟩; exact hn a b hab ⟨ha, hb⟩
        · obtain ⟨d, hd, hdv | hdc⟩ := hcl.last
          · exact ⟨d, hd, hdv⟩
          · exfalso
            match x, hd with
            | [e], hd =>
              cases hd
              rw [tarmi_hyphen.2 (.inl ⟨e, rfl, ?_⟩)] at ht
              · cases ht
              · cases hv : isVowel e with
                | false => rfl
                | true => exact absurd hdc (vowel_not_consonant ((isVowel_iff _).1 hv))
            | a :: b :: x, hd =>
              refine checkZihevlaOrRafsi_consonant hz d ?_ hdc
              rw [List.getLast?_cons_cons] at hd
              exact getLast_mem hd
      · cases hk
    · cases hk
  · split at h
    · cases h
    · rename_i hv
      have hv : isValidRafsi s.allowMz x = true := by simpa using hv
      rw [isValidRafsi_iff] at hv
      exact getRafsiForRafsi_form h ho (.of_rafsi hv) rfl

theorem rafsiListShort_form {b : Build} {s : Settings} {f l : Bool} {x : Str} {os : List RafsiOpt} {o : RafsiOpt}
    (h : rafsiListShort (program b) s f l x = .ok os) (ho : o ∈ os)
    (hx : ∀ c ∈ x, Vowel c ∨ Consonant c ∨ c = '\'') (hq : x.getLast? ≠ some '\'') : Form s f l x o := by
  unfold rafsiListShort at h
  obtain ⟨⟨t, ps⟩, ha, h⟩ := bind_ok h
  have ha : (program b).analyse { yHyphens := s.yHyphens, expRafsi := s.expRafsi, allowMz := s.allowMz } (x ++ s%"a") = .ok (t, ps) := by
    unfold catchNotBrivla at ha
    split at ha
    · cases ha
    · exact ha
  dsimp only at h
  split at h
  · cases h
  · rename_i ht
    have ht : t = .gismu ∨ t = .zihevla := by
      cases t <;> simp at ht ⊢
    obtain ⟨h1, h2, h3, -⟩ := analyse_clean ha (by
      intro c hc
      rcases List.mem_append.1 hc with hc | hc
      · exact hx c hc
      · simp at hc; subst hc; exact .inl (by decide)) ht
    have hne : x ≠ [] := by rintro rfl; simp at h3
    have hlen : 3 ≤ x.length := by simp at h3; omega
    have hfin : ∀ {os}, getRafsiForRafsi x .shortBrivla f l s.consonants s.glides = .ok os → o ∈ os → Form s f l x o :=
      fun h ho => getRafsiForRafsi_form h ho (clean_append_vowel h1 hne hq) ⟨hlen, clustered_append_vowel h2 (by decide)⟩
    obtain ⟨c, hc, h⟩ := bind_ok h
    split at h
    · split at h
      · cases h
      · exact hfin h ho
      · exact hfin h ho
      · cases h
    · exact hfin h ho

/-- The rafsi a word component has: those of the table, the word without its last vowel, the word. -/
theorem rafsiListWord_form {b : Build} {s : Settings} {f l : Bool} {v : Str} {os : List RafsiOpt} {o : RafsiOpt}
    (h : rafsiListWord (program b) s f l v = .ok os) (ho : o ∈ os) :
    ∃ x, Form s f l x o ∧ ((∃ rs, (v, rs) ∈ RAFSI_LIST ∧ x ∈ rs) ∨ (∃ c, Vowel c ∧ v = x ++ [c] ∧ Gismu s.allowMz v) ∨ x = v) := by
  unfold rafsiListWord at h
  split at h
  · cases h
  · rename_i hol
    have hol : isOnlyLojban v = true := by simpa using hol
    have hv := isOnlyLojban_letters hol
    obtain ⟨short, hshort, h⟩ := bind_ok h
    obtain ⟨bt, hbt, h⟩ := bind_ok h
    obtain ⟨four, hfour, h⟩ := bind_ok h
    obtain ⟨long, hlong, h⟩ := bind_ok h
    cases h
    have hbt : ∀ t, bt = some t → ∃ ps, (program b).analyse { yHyphens := s.yHyphens, expRafsi := s.expRafsi, allowMz := s.allowMz } v = .ok (t, ps) := by
      intro t ht
      subst ht
      split at hbt
      · rename_i t' ps ha; cases hbt; exact ⟨ps, ha⟩
      · cases hbt
      · cases hbt
    rcases List.mem_append.1 ho with ho | ho
    · rcases List.mem_append.1 ho with ho | ho
      · obtain ⟨r, hr, os', h, ho⟩ := rafsiListTable_mem hshort ho
        have hk := (table_known r hr).2
        rw [isValidRafsi_iff] at hk
        refine ⟨r, getRafsiForRafsi_form h ho (.of_rafsi hk) rfl, .inl ?_⟩
        cases hlk : RAFSI_LIST.lookup v with
        | none => rw [hlk] at hr; cases hr
        | some rs => rw [hlk] at hr; exact ⟨rs, lookup_mem hlk, hr⟩
      · split at hfour
        · rename_i hg
          obtain ⟨ps, ha⟩ := hbt _ hg
          obtain ⟨h1, h2, h3, c, hc, hcv⟩ := analyse_clean ha hv (.inl rfl)
          have e := dropLastN_one_append hc
          have hgis : Gismu s.allowMz v := by
            obtain ⟨n, hn, hacc⟩ := analyseR_ok (R := recN b (budget v.length)) (by rw [program_analyse] at ha; exact ha)
            obtain ⟨-, rfl⟩ := normalise_ok hn
            rw [reading_letters hv] at hacc
            generalize ht : BType.gismu = t at hacc
            cases hacc with
            | gismu _ _ hg => exact isGismu_iff.1 hg
            | zihevla => cases ht
            | kaha => split at ht <;> cases ht
            | parts => split at ht <;> cases ht
          have hne : dropLastN v 1 ≠ [] := by intro e'; rw [e', List.nil_append] at e; rw [e] at h3; simp at h3
          have hlen : 3 ≤ (dropLastN v 1).length := by
            have := congrArg List.length e; simp at this; omega
          have hq : (dropLastN v 1).getLast? ≠ some '\'' := by
            intro hq
            cases hgis with
            | cvccv _ _ h' _ =>
              simp [dropLastN] at hq; subst hq; exact absurd h'.2.1 (by decide)
            | ccvcv _ _ h' _ =>
              simp [dropLastN] at hq; subst hq; exact absurd h' (by decide)
          rw [e] at h1 h2
          exact ⟨_, getRafsiForRafsi_form hfour ho (clean_append_vowel h1 hne hq) ⟨hlen, clustered_append_vowel h2 hcv⟩,
            .inr (.inl ⟨c, hcv, e, hgis⟩)⟩
        · cases hfour; cases ho
    · split at hlong
      · rename_i hg
        obtain ⟨t, ht, hbt'⟩ : ∃ t, (t = .gismu ∨ t = .zihevla) ∧ bt = some t := by
          rcases hg with hg | hg
          · exact ⟨_, .inl rfl, hg⟩
          · exact ⟨_, .inr rfl, hg⟩
        obtain ⟨ps, ha⟩ := hbt _ hbt'
        obtain ⟨h1, h2, h3, h4⟩ := analyse_clean ha hv ht
        exact ⟨v, getRafsiForRafsi_form hlong ho h1 ⟨h3, h2, h4⟩, .inr (.inr rfl)⟩
      · cases hlong; cases ho

theorem stripBoth_split {p : Char → Bool} (v : Str) : ∃ a b, v = a ++ stripBoth p v ++ b ∧ a.all p = true ∧ b.all p = true ∧
    (∀ c, v.getLast? = some c → p c = true → (∃ d ∈ v, p d = false) → b ≠ []) := by
  refine ⟨v.takeWhile p, ((v.dropWhile p).reverse.takeWhile p).reverse, ?_, ?_, ?_, ?_⟩
  · unfold stripBoth
    rw [List.append_assoc, ← List.reverse_append, List.takeWhile_append_dropWhile, List.reverse_reverse, List.takeWhile_append_dropWhile]
  · rw [List.all_eq_true]; exact fun c hc => takeWhile_all c hc
  · rw [List.all_eq_true]; exact fun c hc => takeWhile_all c (List.mem_reverse.1 hc)
  · rintro c hc hp ⟨d, hd, hdp⟩
    have hne : v.dropWhile p ≠ [] := by
      intro e
      have h2 : v.takeWhile p = v := by
        have := List.takeWhile_append_dropWhile (p := p) (l := v)
        rwa [e, List.append_nil] at this
      have := takeWhile_all (p := p) (w := v) d (by rw [h2]; exact hd)
      rw [hdp] at this
      cases this
    have hl : (v.dropWhile p).getLast? = some c := by
      rw [← getLast?_append_ne (v.takeWhile p) hne, List.takeWhile_append_dropWhile]; exact hc
    obtain ⟨u, hu⟩ := List.getLast?_eq_some_iff.1 hl
    rw [hu]
    simp [hp]

theorem all_dash {a : Str} (h : a.all (· == '-') = true) : a = List.replicate a.length '-' := by
  rw [List.eq_replicate_iff]
  refine ⟨rfl, ?_⟩
  intro c hc
  simpa using (List.all_eq_true.1 h) c hc

/-- Every form in the list of a component is a form of a rafsi of the component. -/
theorem rafsiListFor_form {b : Build} {s : Settings} {f l : Bool} {v : Str} {os : List RafsiOpt} {o : RafsiOpt}
    (h : rafsiListFor (program b) s f l v = .ok os) (ho : o ∈ os) :
    ∃ x, Form s f l x o ∧ RafsiOf RAFSI_LIST s.allowMz v x := by
  unfold rafsiListFor at h
  obtain ⟨c, hc, h⟩ := bind_ok h
  have hc := idxLast_ok hc
  split at h
  · rename_i hd
    subst hd
    obtain ⟨first, -, h⟩ := bind_ok h
    dsimp only at h
    obtain ⟨a, b, e, ha, hb, hbne⟩ := stripBoth_split (p := (· == '-')) v
    generalize hx : stripBoth (· == '-') v = x at h e
    split at h
    · cases h
    · rename_i hol
      have hol : isOnlyLojban x = true := by simpa using hol
      have hx := isOnlyLojban_letters hol
      obtain ⟨d, hd, h⟩ := bind_ok h
      have hd := idxLast_ok hd
      split at h
      · cases h
      · rename_i hdq
        have hq : x.getLast? ≠ some '\'' := by rw [hd]; intro e; cases e; exact hdq rfl
        have hb' : b ≠ [] := by
          refine hbne '-' hc (by decide) ?_
          have hm := getLast_mem hd
          refine ⟨d, by rw [e]; simp [hm], ?_⟩
          have := letter_ne_dash (hx d hm)
          simpa using this
        refine ⟨x, ?_, .inl ⟨a.length, b.length - 1, ?_⟩⟩
        · split at h
          · exact rafsiListShort_form h ho hx hq
          · exact rafsiListRafsi_form h ho hx
        · have : b.length - 1 + 1 = b.length := by
            have := List.length_pos_iff.2 hb'; omega
          rw [this, ← all_dash ha, ← all_dash hb, e]
  · rename_i hd
    obtain ⟨x, hf, hx⟩ := rafsiListWord_form h ho
    refine ⟨x, hf, .inr ⟨by rw [hc]; simpa using hd, ?_⟩⟩
    rcases hx with h | ⟨c, h1, h2, h3⟩ | h
    · exact .inl h
    · exact .inr (.inl ⟨h3, c, h1, h2⟩)
    · exact .inr (.inr h)

/-- A choice of one form per component. -/
inductive Chosen (s : Settings) (N : Nat) : Nat → List Str → List Str → List RafsiOpt → Prop
  | nil {i} : Chosen s N i [] [] []
  | cons {i v vs x xs o os} : Form s (i == 0) (i + 1 == N) x o → RafsiOf RAFSI_LIST s.allowMz v x →
      Chosen s N (i + 1) vs xs os → Chosen s N i (v :: vs) (x :: xs) (o :: os)

theorem rafsiListListFrom_chosen {b : Build} {s : Settings} {N : Nat} : ∀ {vs : List Str} {i : Nat} {ll : List (List RafsiOpt)}
    {rs : List RafsiOpt}, rafsiListListFrom (program b) s N i vs = .ok ll → Picks ll rs →
    ll.length = vs.length ∧ ∃ xs, Chosen s N i vs xs rs := by
  intro vs
  induction vs with
  | nil => intro i ll rs h hp; cases h; cases hp; exact ⟨rfl, [], .nil⟩
  | cons v vs ih =>
    intro i ll rs h hp
    unfold rafsiListListFrom at h
    obtain ⟨a, ha, h⟩ := bind_ok h
    obtain ⟨l, hl, h⟩ := bind_ok h
    cases h
    cases hp with
    | cons ho hp =>
      obtain ⟨x, hf, hx⟩ := rafsiListFor_form ha ho
      obtain ⟨hlen, xs, hxs⟩ := ih hl hp
      exact ⟨by simp [hlen], x :: xs, .cons hf hx hxs⟩

end Jvotci
