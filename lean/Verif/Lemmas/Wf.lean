import Verif.Lemmas.Fix

/-!
# Helper lemmas: letters, adjacent letters and triples of accepted words
-/

namespace Jvotci

open Spec

theorem ite_error_ok {α : Type} {c : Prop} [Decidable c] {e : Err} {x : Except Err α} {y : α}
    (h : (if c then .error e else x) = .ok y) : ¬ c ∧ x = .ok y := by
  split at h
  · cases h
  · exact ⟨‹_›, h⟩

/-- `Q` holds of any two adjacent letters. -/
def AdjAll (Q : Char → Char → Prop) (w : Str) : Prop := ∀ a b, Adjacent w a b → Q a b

variable {Q : Char → Char → Prop}

theorem adjAll_nil : AdjAll Q [] := by
  rintro a b ⟨u, v, h⟩; simp at h

theorem adjAll_single {a : Char} : AdjAll Q [a] := by
  rintro a b ⟨u, v, h⟩
  have := congrArg List.length h
  simp at this
  omega

theorem adjAll_cons {a b : Char} {t : Str} : AdjAll Q (a :: b :: t) ↔ Q a b ∧ AdjAll Q (b :: t) := by
  constructor
  · intro h
    refine ⟨h a b ⟨[], t, rfl⟩, ?_⟩
    rintro c d ⟨u, v, e⟩
    exact h c d ⟨a :: u, v, by rw [e]; rfl⟩
  · rintro ⟨h1, h2⟩ c d ⟨u, v, e⟩
    cases u with
    | nil => simp at e; obtain ⟨rfl, rfl, rfl⟩ := e; exact h1
    | cons x u => simp at e; exact h2 c d ⟨u, v, e.2⟩

theorem adjAll_append {u v : Str} : AdjAll Q (u ++ v) ↔
    AdjAll Q u ∧ AdjAll Q v ∧ (∀ a b, u.getLast? = some a → v.head? = some b → Q a b) := by
  induction u with
  | nil => simp [adjAll_nil]
  | cons a u ih =>
    cases u with
    | nil =>
      cases v with
      | nil => simp [adjAll_nil]
      | cons b v =>
        simp only [List.cons_append, List.nil_append, adjAll_cons, List.getLast?_singleton, List.head?_cons]
        constructor
        · rintro ⟨h1, h2⟩
          refine ⟨adjAll_single, h2, ?_⟩
          intro c d hc hd; cases hc; cases hd; exact h1
        · rintro ⟨-, h2, h3⟩; exact ⟨h3 _ _ rfl rfl, h2⟩
    | cons b u =>
      simp only [List.cons_append, adjAll_cons, List.getLast?_cons_cons] at ih ⊢
      rw [ih]
      simp only [and_assoc]

theorem adjAll_mono {Q' : Char → Char → Prop} {w : Str} (h : AdjAll Q w) (hq : ∀ a b, Q a b → Q' a b) :
    AdjAll Q' w := fun a b hab => hq a b (h a b hab)

/-- No banned triple. -/
def NoTriple (w : Str) : Prop := ∀ t ∈ bannedTriples, ¬ Occurs t w

theorem banned_consonants {t : Str} (h : t ∈ bannedTriples) :
    ∃ a b c, t = [a, b, c] ∧ isConsonant a = true ∧ isConsonant b = true ∧ isConsonant c = true := by
  simp only [bannedTriples, List.mem_cons, List.not_mem_nil, or_false] at h
  rcases h with rfl | rfl | rfl | rfl <;> exact ⟨_, _, _, rfl, by decide, by decide, by decide⟩

theorem noTriple_short {w : Str} (h : w.length < 3) : NoTriple w := by
  rintro t ht ⟨u, v, e⟩
  obtain ⟨a, b, c, rfl, -⟩ := banned_consonants ht
  have := congrArg List.length e
  simp at this
  omega

theorem noTriple_cons {a b c : Char} {t : Str} :
    NoTriple (a :: b :: c :: t) ↔ [a, b, c] ∉ bannedTriples ∧ NoTriple (b :: c :: t) := by
  constructor
  · intro h
    refine ⟨fun hm => h _ hm ⟨[], t, rfl⟩, ?_⟩
    rintro x hx ⟨u, v, e⟩
    exact h x hx ⟨a :: u, v, by rw [e]; rfl⟩
  · rintro ⟨h1, h2⟩ x hx ⟨u, v, e⟩
    cases u with
    | nil =>
      obtain ⟨p, q, r, rfl, -⟩ := banned_consonants hx
      simp at e
      obtain ⟨rfl, rfl, rfl, -⟩ := e
      exact h1 hx
    | cons y u =>
      simp at e
      exact h2 x hx ⟨u, v, by rw [e.2]; simp⟩

theorem noTriple_cons_nc {a b : Char} {t : Str} (h : isConsonant a = false ∨ isConsonant b = false) :
    NoTriple (a :: b :: t) ↔ NoTriple (b :: t) := by
  cases t with
  | nil => exact ⟨fun _ => noTriple_short (by simp), fun _ => noTriple_short (by simp)⟩
  | cons c t =>
    rw [noTriple_cons]
    refine ⟨fun h => h.2, fun h' => ⟨?_, h'⟩⟩
    intro hm
    obtain ⟨p, q, r, e, h1, h2, -⟩ := banned_consonants hm
    simp at e
    obtain ⟨rfl, rfl, rfl⟩ := e
    rcases h with h | h <;> simp_all

theorem noTriple_append {u v : Str} (hu : NoTriple u) (hv : NoTriple v)
    (h : ∀ a b, u.getLast? = some a → v.head? = some b → isConsonant a = false ∨ isConsonant b = false) :
    NoTriple (u ++ v) := by
  induction u with
  | nil => exact hv
  | cons a u ih =>
    cases u with
    | nil =>
      cases v with
      | nil => exact noTriple_short (by simp)
      | cons b v =>
        rw [List.cons_append, List.nil_append]
        exact (noTriple_cons_nc (h a b rfl rfl)).2 hv
    | cons b u =>
      cases u with
      | nil =>
        cases v with
        | nil => simpa using hu
        | cons c v =>
          simp only [List.cons_append, List.nil_append] at ih ⊢
          rw [noTriple_cons]
          refine ⟨?_, (noTriple_cons_nc (h b c rfl rfl)).2 hv⟩
          intro hm
          obtain ⟨p, q, r, e, h1, h2, h3⟩ := banned_consonants hm
          simp at e
          obtain ⟨rfl, rfl, rfl⟩ := e
          rcases h b c rfl rfl with h | h <;> simp_all
      | cons c u =>
        simp only [List.cons_append, List.getLast?_cons_cons] at ih h ⊢
        rw [noTriple_cons] at hu ⊢
        exact ⟨hu.1, ih hu.2 h⟩

theorem noTriple_prefix {u v : Str} (h : NoTriple (u ++ v)) : NoTriple u := by
  rintro t ht ⟨x, y, e⟩
  exact h t ht ⟨x, y ++ v, by rw [e]; simp⟩

/-- Two adjacent letters are acceptable: two consonants form a permissible pair. -/
def PairOk (mz : Bool) (a b : Char) : Prop := Consonant a → Consonant b → PermissiblePair mz a b

/-- An apostrophe has a vowel or `y` next to it. -/
def AposOk (a b : Char) : Prop := (b = '\'' → Vowel a ∨ a = 'y') ∧ (a = '\'' → Vowel b ∨ b = 'y')

theorem apos_not_vowel : ¬ Vowel '\'' := by decide
theorem apos_not_consonant : ¬ Consonant '\'' := by decide
theorem y_not_consonant : ¬ Consonant 'y' := by decide

/-- The word is made of Lojban letters, adjacent consonants are permissible, no triple is banned. -/
structure WF (mz : Bool) (w : Str) : Prop where
  letters : ∀ c ∈ w, Letter c
  pairs : AdjAll (PairOk mz) w
  triples : NoTriple w

theorem WF.append {mz : Bool} {u v : Str} (hu : WF mz u) (hv : WF mz v)
    (h : ∀ a b, u.getLast? = some a → v.head? = some b → ¬ Consonant a ∨ ¬ Consonant b) : WF mz (u ++ v) := by
  refine ⟨?_, adjAll_append.2 ⟨hu.pairs, hv.pairs, ?_⟩, noTriple_append hu.triples hv.triples ?_⟩
  · intro c hc
    rcases List.mem_append.1 hc with hc | hc
    · exact hu.letters c hc
    · exact hv.letters c hc
  · intro a b ha hb h1 h2
    rcases h a b ha hb with h | h
    · exact absurd h1 h
    · exact absurd h2 h
  · intro a b ha hb
    rw [isConsonant_false, isConsonant_false]
    exact h a b ha hb

theorem WF.prefix {mz : Bool} {u v : Str} (h : WF mz (u ++ v)) : WF mz u :=
  ⟨fun c hc => h.letters c (List.mem_append_left _ hc), (adjAll_append.1 h.pairs).1, noTriple_prefix h.triples⟩

theorem WF.single {mz : Bool} {c : Char} (h : Letter c) : WF mz [c] :=
  ⟨by intro d hd; simp at hd; subst hd; exact h, adjAll_single, noTriple_short (by simp)⟩

theorem WF.nil {mz : Bool} : WF mz [] := ⟨by simp, adjAll_nil, noTriple_short (by simp)⟩

theorem WF.cons {mz : Bool} {c : Char} {w : Str} (h : Letter c) (hc : ¬ Consonant c) (hw : WF mz w) : WF mz (c :: w) := by
  have := WF.append (WF.single (mz := mz) h) hw (by intro a b ha _; simp at ha; subst ha; exact .inl hc)
  simpa using this

/-! ## Consonant runs -/

theorem hasBadPair_ok {mz : Bool} : ∀ {w : Str}, hasBadPair (validPairs mz) w = false → AdjAll (PairOk mz) w := by
  intro w
  induction w with
  | nil => intro _; exact adjAll_nil
  | cons a w ih =>
    intro h
    cases w with
    | nil => exact adjAll_single
    | cons b w =>
      rw [hasBadPair, Bool.or_eq_false_iff] at h
      exact adjAll_cons.2 ⟨fun _ _ => validPairs_contains.1 (by simpa using h.1), ih h.2⟩

theorem hasBannedTriple_ok : ∀ {w : Str}, hasBannedTriple w = false → NoTriple w := by
  intro w
  induction w with
  | nil => intro _; exact noTriple_short (by simp)
  | cons a w ih =>
    intro h
    match w, ih, h with
    | [], _, _ => exact noTriple_short (by simp)
    | [b], _, _ => exact noTriple_short (by simp)
    | b :: c :: w, ih, h =>
      rw [hasBannedTriple, Bool.or_eq_false_iff, banned_table] at h
      exact noTriple_cons.2 ⟨by simpa using h.1, ih h.2⟩

theorem zihConsonants_ok {mz : Bool} {chunk : Str} {st st' : ZState} (h : zihConsonants mz chunk st = .ok st') :
    st' = { pos := st.pos + chunk.length, numSyllables := st.numSyllables,
            clusterPos := if chunk.length ≥ 2 ∧ st.clusterPos = none then some st.pos else st.clusterPos,
            numConsonants := st.numConsonants + chunk.length, finalConsonantPos := st.pos } ∧
    (chunk.length ≥ 2 → st.clusterPos = none → st.numConsonants ≤ 1) ∧
    (chunk.length ≥ 2 → st.numSyllables = 0 → INITIAL.contains (slice chunk 0 2) = true) ∧
    hasBadPair (validPairs mz) chunk = false ∧ hasBannedTriple chunk = false ∧
    (st.pos = 0 → isZihevlaInitialCluster chunk = true) ∧
    (st.pos ≠ 0 → isZihevlaMiddleCluster chunk = true) := by
  unfold zihConsonants at h
  split at h
  · cases h
  · rename_i h1
    dsimp only at h
    split at h
    · cases h
    · rename_i h2
      split at h
      · cases h
      · rename_i h3
        split at h
        · cases h
        · rename_i h4
          split at h
          · cases h
          · rename_i h5
            split at h
            · cases h
            · rename_i h6
              cases h
              refine ⟨rfl, ?_, ?_, by simpa using h3, by simpa using h4, ?_, ?_⟩
              · intro a b; apply Nat.le_of_not_lt; intro hc; exact h1 ⟨a, b, hc⟩
              · intro a b; simpa [a, b] using h2
              · intro a; simpa [a] using h5
              · intro a; simpa [a] using h6

theorem zihVowels_ok {v chunk : Str} {st st' : ZState} (h : zihVowels v chunk st = .ok st') :
    ∃ sy, splitVowelCluster chunk = .ok sy ∧
      st' = { st with pos := st.pos + chunk.length, numSyllables := st.numSyllables + sy.length } ∧
      (st.pos ≠ 0 → ∀ s0 ss, sy = s0 :: ss → s0 ∉ FOLLOW_VOWEL_CLUSTERS) := by
  unfold zihVowels at h
  split at h
  · cases h
  · cases h
  · rename_i sy hsy
    obtain ⟨-, h⟩ := ite_error_ok h
    obtain ⟨hf, h⟩ := ite_error_ok h
    cases h
    refine ⟨sy, hsy, rfl, ?_⟩
    rintro hp s0 ss rfl
    simpa [hp] using hf

theorem takeWhile_all {p : Char → Bool} {w : Str} : ∀ c ∈ w.takeWhile p, p c = true := by
  intro c hc
  exact List.all_eq_true.1 List.all_takeWhile c hc

theorem dropWhile_head {p : Char → Bool} {w : Str} {c : Char} (h : (w.dropWhile p).head? = some c) : p c = false := by
  have := List.head?_dropWhile_not p w
  rw [h] at this
  simpa using this

theorem takeWhile_ne_nil {p : Char → Bool} {c : Char} {w : Str} (h : p c = true) : (c :: w).takeWhile p ≠ [] := by
  simp [h]

theorem getLast_mem {w : Str} {c : Char} (h : w.getLast? = some c) : c ∈ w := by
  obtain ⟨t, rfl⟩ := List.getLast?_eq_some_iff.1 h
  simp

theorem getLast?_append_ne (u : Str) {v : Str} (h : v ≠ []) : (u ++ v).getLast? = v.getLast? := by
  rw [List.getLast?_append]
  cases v with
  | nil => exact absurd rfl h
  | cons a t => rw [List.getLast?_cons]; rfl

/-- What the scan of a zi'evla checks about the letters. -/
theorem zihScan_wf {mz : Bool} {v : Str} : ∀ {fuel : Nat} {rest pre : Str} {st st' : ZState},
    zihScan mz v fuel rest st = .ok st' → v = pre ++ rest → st.pos = pre.length →
    WF mz rest ∧ AdjAll AposOk rest ∧ (∀ c ∈ rest, c ≠ 'y') ∧
      (rest.head? = some '\'' → ∃ a, pre.getLast? = some a ∧ Vowel a) ∧ (rest.getLast? ≠ some '\'') := by
  intro fuel
  induction fuel with
  | zero => intro rest pre st st' h; cases h
  | succ fuel ih =>
    intro rest pre st st' h hv hp
    cases rest with
    | nil => exact ⟨WF.nil, adjAll_nil, by simp, by simp, by simp⟩
    | cons c cs =>
      unfold zihScan at h
      split at h
      · rename_i hc
        obtain ⟨st1, h1, h⟩ := bind_ok h
        obtain ⟨rfl, -, -, hb, ht, -, -⟩ := zihConsonants_ok h1
        have hne := takeWhile_ne_nil (w := cs) hc
        have hall := takeWhile_all (p := isConsonant) (w := c :: cs)
        have heq : c :: cs = (c :: cs).takeWhile isConsonant ++ (c :: cs).dropWhile isConsonant :=
          List.takeWhile_append_dropWhile.symm
        have hhead : ∀ d, ((c :: cs).dropWhile isConsonant).head? = some d → isConsonant d = false :=
          fun d hd => dropWhile_head hd
        generalize (c :: cs).takeWhile isConsonant = chunk at *
        generalize (c :: cs).dropWhile isConsonant = rest' at *
        have hlc : ∀ a, chunk.getLast? = some a → Consonant a := fun a ha => (isConsonant_iff a).1 (hall a (getLast_mem ha))
        obtain ⟨w1, w2, w3, w4, w5⟩ := ih (pre := pre ++ chunk) h (by rw [hv, heq]; simp) (by simp [hp])
        have hna : rest'.head? ≠ some '\'' := by
          intro he
          obtain ⟨a, ha, hav⟩ := w4 he
          rw [getLast?_append_ne _ hne] at ha
          have := not_vowel_of_consonant ((isConsonant_iff a).2 (hlc a ha))
          rw [isVowel_false] at this
          exact this hav
        rw [heq]
        refine ⟨WF.append ⟨fun d hd => .inr (.inl ((isConsonant_iff d).1 (hall d hd))), hasBadPair_ok hb, hasBannedTriple_ok ht⟩ w1 ?_,
          adjAll_append.2 ⟨?_, w2, ?_⟩, ?_, ?_, ?_⟩
        · intro a b _ hb; right; exact isConsonant_false.1 (hhead b hb)
        · rintro a b ⟨x, z, e⟩
          have ha := hall a (by rw [e]; simp)
          have hb := hall b (by rw [e]; simp)
          rw [isConsonant_iff] at ha hb
          exact ⟨by rintro rfl; exact absurd hb (by decide), by rintro rfl; exact absurd ha (by decide)⟩
        · intro a b ha hb
          have ha' := hlc a ha
          exact ⟨by rintro rfl; exact absurd hb hna, by rintro rfl; exact absurd ha' (by decide)⟩
        · intro d hd
          rcases List.mem_append.1 hd with hd | hd
          · rintro rfl; have := hall _ hd; revert this; decide
          · exact w3 d hd
        · intro he
          cases chunk with
          | nil => exact absurd rfl hne
          | cons x chunk => simp at he; subst he; exact absurd (hall '\'' (by simp)) (by decide)
        · intro he
          rw [List.getLast?_append] at he
          cases hr : rest'.getLast? with
          | some x => rw [hr] at he w5; simp at he; subst he; exact w5 rfl
          | none =>
            rw [hr] at he
            simp at he
            have := hlc _ he
            revert this; decide
      · rename_i hc
        split at h
        · rename_i hvw
          obtain ⟨st1, h1, h⟩ := bind_ok h
          obtain ⟨sy, hsy, rfl, hfv⟩ := zihVowels_ok h1
          have hne := takeWhile_ne_nil (w := cs) hvw
          have hall := takeWhile_all (p := isVowel) (w := c :: cs)
          have heq : c :: cs = (c :: cs).takeWhile isVowel ++ (c :: cs).dropWhile isVowel :=
            List.takeWhile_append_dropWhile.symm
          generalize (c :: cs).takeWhile isVowel = chunk at *
          generalize (c :: cs).dropWhile isVowel = rest' at *
          have hlc : ∀ a, chunk.getLast? = some a → Vowel a := fun a ha => (isVowel_iff a).1 (hall a (getLast_mem ha))
          have hvc : ∀ a, Vowel a → ¬ Consonant a := fun a ha =>
            isConsonant_false.1 (not_consonant_of_vowel ((isVowel_iff a).2 ha))
          obtain ⟨w1, w2, w3, w4, w5⟩ := ih (pre := pre ++ chunk) h (by rw [hv, heq]; simp) (by simp [hp])
          rw [heq]
          have hwf : ∀ ch : Str, (∀ d ∈ ch, isVowel d = true) → WF mz ch := by
            intro ch hch
            induction ch with
            | nil => exact WF.nil
            | cons x ch ihc =>
              have hx := (isVowel_iff x).1 (hch x (by simp))
              exact WF.cons (.inl hx) (hvc x hx) (ihc (fun d hd => hch d (by simp [hd])))
          refine ⟨WF.append (hwf chunk hall) w1 ?_, adjAll_append.2 ⟨?_, w2, ?_⟩, ?_, ?_, ?_⟩
          · intro a b ha _; left; exact hvc a (hlc a ha)
          · rintro a b ⟨x, z, e⟩
            have ha := hall a (by rw [e]; simp)
            have hb := hall b (by rw [e]; simp)
            rw [isVowel_iff] at ha hb
            exact ⟨fun _ => .inl ha, fun _ => .inl hb⟩
          · intro a b ha hb
            have ha' := hlc a ha
            exact ⟨fun _ => .inl ha', by rintro rfl; exact absurd ha' (by decide)⟩
          · intro d hd
            rcases List.mem_append.1 hd with hd | hd
            · rintro rfl; have := hall _ hd; revert this; decide
            · exact w3 d hd
          · intro he
            cases chunk with
            | nil => exact absurd rfl hne
            | cons x chunk => simp at he; subst he; exact absurd (hall '\'' (by simp)) (by decide)
          · intro he
            rw [List.getLast?_append] at he
            cases hr : rest'.getLast? with
            | some x => rw [hr] at he w5; simp at he; subst he; exact w5 rfl
            | none =>
              rw [hr] at he
              simp at he
              have := hlc _ he
              revert this; decide
        · split at h
          · rename_i hq
            subst hq
            obtain ⟨h1, h⟩ := ite_error_ok h
            obtain ⟨h2, h⟩ := ite_error_ok h
            obtain ⟨w1, w2, w3, w4, w5⟩ := ih (pre := pre ++ s%"'") h (by rw [hv]; simp) (by simp [hp])
            have hpl : ∃ a, pre.getLast? = some a ∧ Vowel a := by
              rw [Bool.or_eq_true, not_or] at h1
              obtain ⟨h1a, h1b⟩ := h1
              have hpos : 0 < pre.length := by simp at h1a; omega
              rw [hv, hp, List.getElem?_append_left (by omega)] at h1b
              rw [List.getLast?_eq_getElem?]
              cases hx : pre[pre.length - 1]? with
              | none => rw [hx] at h1b; simp at h1b
              | some x => rw [hx] at h1b; exact ⟨x, rfl, (isVowel_iff x).1 (by simpa using h1b)⟩
            have hcs : ∃ b t, cs = b :: t ∧ Vowel b := by
              cases cs with
              | nil => simp at h2
              | cons b t =>
                rw [hv, hp, List.getElem?_append_right (by omega)] at h2
                simp at h2
                exact ⟨b, t, rfl, (isVowel_iff b).1 (by simpa using h2)⟩
            obtain ⟨b, t, rfl, hb⟩ := hcs
            refine ⟨WF.cons (.inr (.inr (.inl rfl))) (by decide) w1, adjAll_cons.2 ⟨⟨?_, fun _ => .inl hb⟩, w2⟩, ?_, fun _ => hpl, ?_⟩
            · rintro rfl; exact absurd hb (by decide)
            · intro d hd
              rcases List.mem_cons.1 hd with rfl | hd
              · decide
              · exact w3 d hd
            · rw [List.getLast?_cons_cons]; exact w5
          · cases h

theorem checkZihevlaOrRafsi_scan {R : Rec} {rz : Bool} {y : YHyphens} {ex mz : Bool} {v : Str} {sh : Shape}
    (h : checkZihevlaOrRafsi R rz y ex mz v = .ok sh) : ∃ st, zihScan mz v (v.length + 1) v {} = .ok st ∧
      (rz = true → 4 ≤ v.length) ∧ (rz = true ∨ ex = false → 2 ≤ st.numSyllables) ∧
      (st.clusterPos = none → sh = .rafsi ∧ rz = false ∧ st.numConsonants ≤ 1 ∧ st.finalConsonantPos = 0 ∧
        ∃ c, v[0]? = some c ∧ (isConsonant c = true ∨ ex = true)) ∧
      (st.clusterPos ≠ none → sh = .zihevla) := by
  unfold checkZihevlaOrRafsi at h
  split at h
  · cases h
  · rename_i h4
    obtain ⟨st, hst, h⟩ := bind_ok h
    split at h
    · cases h
    · rename_i h2
      obtain ⟨_, _, h⟩ := bind_ok h
      refine ⟨st, hst, ?_, ?_, ?_⟩
      · intro hr; apply Nat.le_of_not_lt; intro hl; exact h4 ⟨hr, hl⟩
      · intro hr
        apply Nat.le_of_not_lt
        intro hl
        exact h2 ⟨hl, by simpa using hr⟩
      · split at h
        · rename_i hcp
          refine ⟨fun _ => ?_, fun hh => absurd hcp hh⟩
          split at h
          · cases h
          · rename_i hrz
            obtain ⟨c, hc, h⟩ := bind_ok h
            split at h
            · cases h
            · rename_i h5
              split at h
              · cases h
              · rename_i h6
                split at h
                · cases h
                · rename_i h7
                  cases h
                  refine ⟨rfl, by simpa using hrz, by omega, by omega, c, idx_ok hc, ?_⟩
                  cases h8 : isConsonant c <;> cases ex <;> simp_all
        · rename_i p hcp
          refine ⟨fun hh => (by rw [hcp] at hh; cases hh), fun _ => ?_⟩
          obtain ⟨c, hc, h⟩ := bind_ok h
          obtain ⟨sk, hsk, h⟩ := bind_ok h
          split at h
          · obtain ⟨b, hb, h⟩ := bind_ok h
            split at h
            · cases h
            · cases h; rfl
          · cases h; rfl

theorem checkZihevlaOrRafsi_wf {R : Rec} {rz : Bool} {y : YHyphens} {ex mz : Bool} {v : Str} {sh : Shape}
    (h : checkZihevlaOrRafsi R rz y ex mz v = .ok sh) :
    WF mz v ∧ AdjAll AposOk v ∧ (∀ c ∈ v, c ≠ 'y') ∧ v.head? ≠ some '\'' ∧ v.getLast? ≠ some '\'' := by
  obtain ⟨st, hst, -⟩ := checkZihevlaOrRafsi_scan h
  obtain ⟨w1, w2, w3, w4, w5⟩ := zihScan_wf (pre := []) hst rfl rfl
  exact ⟨w1, w2, w3, (fun he => by obtain ⟨a, ha, _⟩ := w4 he; simp at ha), w5⟩

end Jvotci
