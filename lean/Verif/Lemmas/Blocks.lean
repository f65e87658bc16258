import Verif.Lemmas.Cmavo

/-!
# Helper lemmas: words put together from consonants and vowels sound right
-/

namespace Jvotci

open Spec

theorem run_append {P : Char → Prop} {a b u y t : Str} (h : Run P (a ++ b) u y t) :
    (∃ t', t = t' ++ b ∧ Run P a u y t') ∨ (∃ u', u = a ++ u' ∧ Run P b u' y t) ∨
    (∃ y1 y2, y = y1 ++ y2 ∧ y1 ≠ [] ∧ y2 ≠ [] ∧ a = u ++ y1 ∧ b = y2 ++ t) := by
  have e := h.eq
  rcases List.append_eq_append_iff.1 e with ⟨c, e1, e2⟩ | ⟨c, e1, e2⟩
  · rcases List.append_eq_append_iff.1 e1 with ⟨d, f1, f2⟩ | ⟨d, f1, f2⟩
    · by_cases hd : d = []
      · subst hd
        right; left
        refine ⟨[], by simpa using f1.symm, by rw [e2, f2]; simp, h.some, h.all, by simp, h.after⟩
      · by_cases hc : c = []
        · subst hc
          left
          refine ⟨[], by simpa using e2.symm, by rw [f1, f2]; simp, h.some, h.all, h.before, by simp⟩
        · right; right
          exact ⟨d, c, f2, hd, hc, f1, e2⟩
    · right; left
      refine ⟨d, f1, by rw [e2, f2], h.some, h.all, ?_, h.after⟩
      intro c' hc'
      refine h.before c' ?_
      rw [f1, List.getLast?_append, hc']
      rfl
  · left
    refine ⟨c, e2, e1, h.some, h.all, h.before, ?_⟩
    intro d hd
    refine h.after d ?_
    rw [e2]
    cases c with
    | nil => cases hd
    | cons _ _ => exact hd

/-- Letters of one kind are part of a run. -/
theorem run_around {P : Char → Prop} [DecidablePred P] {p m s : Str} (hm : m ≠ []) (ha : ∀ c ∈ m, P c) :
    ∃ u a b t, Run P (p ++ m ++ s) u (a ++ m ++ b) t ∧ p = u ++ a ∧ s = b ++ t := by
  have front : ∀ s : Str, ∃ b t, s = b ++ t ∧ (∀ c ∈ b, P c) ∧ ∀ c, t.head? = some c → ¬ P c := by
    intro s
    induction s with
    | nil => exact ⟨[], [], rfl, by simp, by simp⟩
    | cons c s ih =>
      by_cases hc : P c
      · obtain ⟨b, t, rfl, h1, h2⟩ := ih
        exact ⟨c :: b, t, rfl, by simpa [hc] using h1, h2⟩
      · exact ⟨[], c :: s, rfl, by simp, by simpa using hc⟩
  obtain ⟨b, t, rfl, h1, h2⟩ := front s
  obtain ⟨a', u', e, h3, h4⟩ := front p.reverse
  refine ⟨u'.reverse, a'.reverse, b, t, ⟨?_, by simp [hm], ?_, ?_, h2⟩, ?_, rfl⟩
  · have := congrArg List.reverse e
    rw [List.reverse_reverse] at this
    rw [this]
    simp
  · intro c hc
    simp at hc
    rcases hc with hc | hc | hc
    · exact h3 c hc
    · exact ha c hc
    · exact h1 c hc
  · intro c hc
    rw [List.getLast?_reverse] at hc
    exact h4 c hc
  · have := congrArg List.reverse e
    rw [List.reverse_reverse] at this
    rw [this]
    simp

/-- Consonants between vowels, and what is forbidden everywhere. -/
structure MidRun (mz : Bool) (ch : Str) : Prop where
  middle : MiddleCluster ch
  pairs : ∀ a b, Adjacent ch a b → PermissiblePair mz a b
  triples : ∀ t ∈ bannedTriples, ¬ Occurs t ch

/-- What may follow a vowel. -/
structure Mid (mz : Bool) (w : Str) : Prop where
  first : ∀ c, w.head? = some c → Consonant c
  letters : ∀ c ∈ w, Vowel c ∨ Consonant c ∨ c = '\''
  apostrophe : ∀ u t, w = u ++ '\'' :: t → (∃ a, u.getLast? = some a ∧ Vowel a) ∧ ∃ b, t.head? = some b ∧ Vowel b
  consonants : ∀ u ch t, Run Consonant w u ch t → MidRun mz ch
  vowels : ∀ u x t, Run Vowel w u x t → Nucleus x
  syllables : ∃ m, (w ≠ [] → 1 ≤ m) ∧ ∀ b, Syllables b w m

theorem nuclei_syllables {n : Str} (hn : Nuclei n) : ∀ {w : Str} {m : Nat}, (∀ b, Syllables b w m) →
    ∃ j, 1 ≤ j ∧ Syllables .letter (n ++ w) (m + j) := by
  induction hn with
  | one hn =>
    intro w m h
    exact ⟨1, by omega, .nucleus (by simp) hn (h _)⟩
  | @more n t hn _ ih =>
    intro w m h
    obtain ⟨j, hj, hs⟩ := ih h
    refine ⟨j + 1, by omega, ?_⟩
    rw [List.append_assoc]
    exact .nucleus (by simp) hn (.letter (.inr rfl) hs)

theorem letters_syllables {k : Str} (hne : k ≠ []) (h : ∀ c ∈ k, Consonant c) {w : Str} {m : Nat} (hs : Syllables .letter w m) :
    ∀ b, Syllables b (k ++ w) m := by
  induction k with
  | nil => exact absurd rfl hne
  | cons c k ih =>
    intro b
    cases k with
    | nil => exact .letter (.inl (h c (by simp))) hs
    | cons d k => exact .letter (.inl (h c (by simp))) (ih (by simp) (fun c hc => h c (List.mem_cons_of_mem _ hc)) _)

theorem mid_nil {mz : Bool} : Mid mz [] := by
  refine ⟨by simp, by simp, by simp, ?_, ?_, ⟨0, by simp, fun _ => .nil⟩⟩
  · intro u ch t h
    have e := h.eq
    simp at e
    exact absurd e.2.1 h.some
  · intro u ch t h
    have e := h.eq
    simp at e
    exact absurd e.2.1 h.some

/-- One consonant or an initial pair. -/
def Head (k : Str) : Prop := (∃ a, k = [a] ∧ Consonant a) ∨ ∃ a b, k = [a, b] ∧ InitialPair a b

theorem head_consonants {k : Str} (h : Head k) : ∀ c ∈ k, Consonant c := by
  rcases h with ⟨a, rfl, ha⟩ | ⟨a, b, rfl, hi⟩
  · simpa using ha
  · have := initial_cons hi
    simp [(isConsonant_iff a).1 this.1, (isConsonant_iff b).1 this.2]

theorem head_cluster {k : Str} (h : Head k) : InitialCluster k := by
  rcases h with ⟨a, rfl, ha⟩ | ⟨a, b, rfl, hi⟩
  · exact .one ha
  · exact .two hi

theorem initial_permissible {mz : Bool} {a b : Char} (h : InitialPair a b) : PermissiblePair mz a b := by
  have key : ∀ p ∈ initialPairs, ∀ a b, p = [a, b] → PermissiblePair false a b := by
    intro p hp
    have : ∀ p ∈ initialPairs, ∃ a ∈ p[0]?, ∃ b ∈ p[1]?, PermissiblePair false a b := by decide
    rintro a b rfl
    obtain ⟨a', ha, b', hb, hab⟩ := this _ hp
    simp at ha hb
    subst ha hb
    exact hab
  obtain ⟨h1, h2, h3, h4, h5, h6, h7, h8⟩ := key _ h a b rfl
  exact ⟨h1, h2, h3, h4, h5, h6, h7, fun e => absurd (h8 e) (by simp)⟩

theorem head_mid {mz : Bool} {k : Str} (h : Head k) : MidRun mz k := by
  rcases h with ⟨a, rfl, ha⟩ | ⟨a, b, rfl, hi⟩
  · refine ⟨.inl (by simp), ?_, ?_⟩
    · rintro x y ⟨u, v, e⟩
      have := congrArg List.length e
      simp at this
      omega
    · rintro t ht ⟨u, v, e⟩
      have h3 : ∀ t ∈ bannedTriples, t.length = 3 := by decide
      have := congrArg List.length e
      have := h3 t ht
      simp at *
      omega
  · refine ⟨.inl (by simp), ?_, ?_⟩
    · rintro x y ⟨u, v, e⟩
      cases u with
      | nil =>
        cases e
        exact initial_permissible hi
      | cons _ _ =>
        have := congrArg List.length e
        simp at this
        omega
    · rintro t ht ⟨u, v, e⟩
      have h3 : ∀ t ∈ bannedTriples, t.length = 3 := by decide
      have := congrArg List.length e
      have := h3 t ht
      simp at *
      omega

theorem nuclei_run0 {n : Str} (hn : Nuclei n) : ∀ {u y t : Str}, Run Vowel n u y t → Nucleus y := by
  induction hn with
  | one hn =>
    intro u y t h
    obtain ⟨-, rfl, -⟩ := run_whole h (nucleus_all hn).2.2
    exact hn
  | more hn _ ih =>
    intro u y t h
    rcases run_apos h with ⟨_, -, h⟩ | ⟨_, -, h⟩
    · obtain ⟨-, rfl, -⟩ := run_whole h (nucleus_all hn).2.2
      exact hn
    · exact ih h

theorem nuclei_noConsonant {n : Str} (hn : Nuclei n) : ∀ c ∈ n, ¬ Consonant c := by
  intro c hc h
  rcases (nuclei_letters hn).1 c hc with h' | rfl
  · exact vowel_not_consonant h' h
  · revert h; decide

/-- The first consonants of a block. -/
theorem block_run {k n w u ch t : Str} (hk : Head k) (hn : Nuclei n) (h : Run Consonant (k ++ (n ++ w)) u ch t) :
    (u = [] ∧ ch = k) ∨ ∃ u', u = k ++ (n ++ u') ∧ Run Consonant w u' ch t := by
  obtain ⟨-, ⟨a, ha, hav⟩, -⟩ := nuclei_letters hn
  have hnc := nuclei_noConsonant hn
  rcases run_append h with ⟨t', -, h⟩ | ⟨u', rfl, h'⟩ | ⟨y1, y2, rfl, -, hy2, -, e⟩
  · obtain ⟨rfl, rfl, -⟩ := run_whole h (head_consonants hk)
    exact .inl ⟨rfl, rfl⟩
  · right
    rcases run_append h' with ⟨t', -, h⟩ | ⟨u'', rfl, h''⟩ | ⟨y1, y2, rfl, hy1, -, e, -⟩
    · exfalso
      cases hch : ch with
      | nil => exact h.some hch
      | cons c ch' =>
        subst hch
        exact hnc c (by rw [h.eq]; simp) (h.all c (by simp))
    · exact ⟨u'', rfl, h''⟩
    · exfalso
      cases y1 with
      | nil => exact hy1 rfl
      | cons c y1 => exact hnc c (by rw [e]; simp) (h'.all c (by simp))
  · exfalso
    cases n with
    | nil => cases ha
    | cons a' n =>
      cases ha
      cases y2 with
      | nil => exact hy2 rfl
      | cons c y2 =>
        rw [List.cons_append, List.cons_append] at e
        obtain ⟨rfl, -⟩ := List.cons.inj e
        exact vowel_not_consonant hav (h.all a (by simp))

theorem block_syllables {mz : Bool} {k n w : Str} (hk : Head k) (hn : Nuclei n) (h : Mid mz w) :
    ∃ m, (if w = [] then 1 else 2) ≤ m ∧ ∀ b, Syllables b (k ++ (n ++ w)) m := by
  obtain ⟨m, hm, hs⟩ := h.syllables
  obtain ⟨j, hj, hs'⟩ := nuclei_syllables hn hs
  have hkne : k ≠ [] := by rcases hk with ⟨a, rfl, -⟩ | ⟨a, b, rfl, -⟩ <;> simp
  refine ⟨m + j, ?_, letters_syllables hkne (head_consonants hk) hs'⟩
  split
  · omega
  · rename_i hw
    have := hm hw
    omega

/-- Consonants and vowels before what may follow a vowel. -/
theorem mid_block {mz : Bool} {k n w : Str} (hk : Head k) (hn : Nuclei n) (h : Mid mz w) : Mid mz (k ++ (n ++ w)) := by
  have hkc := head_consonants hk
  obtain ⟨hnl, ⟨a, ha, hav⟩, ⟨z, hz, hzv⟩⟩ := nuclei_letters hn
  have hkne : k ≠ [] := by rcases hk with ⟨a, rfl, -⟩ | ⟨a, b, rfl, -⟩ <;> simp
  refine ⟨?_, ?_, ?_, ?_, ?_, ?_⟩
  · intro c hc
    cases k with
    | nil => exact absurd rfl hkne
    | cons d k => cases hc; exact hkc c (by simp)
  · intro c hc
    simp only [List.mem_append] at hc
    rcases hc with hc | hc | hc
    · exact .inr (.inl (hkc c hc))
    · exact (hnl c hc).elim .inl (fun h => .inr (.inr h))
    · exact h.letters c hc
  · intro u t e
    rcases List.append_eq_append_iff.1 e with ⟨c, e1, e2⟩ | ⟨c, e1, e2⟩
    · -- u = k ++ c, n ++ w = c ++ ' :: t
      rcases List.append_eq_append_iff.1 e2 with ⟨d, f1, f2⟩ | ⟨d, f1, f2⟩
      · -- c = n ++ d, w = d ++ ' :: t
        obtain ⟨⟨b, hb, hbv⟩, h2⟩ := h.apostrophe d t f2
        exact ⟨⟨b, by rw [e1, f1]; simp [List.getLast?_append, hb], hbv⟩, h2⟩
      · cases d with
        | nil =>
          exfalso
          have := h.first '\'' (by rw [← List.nil_append w, ← f2]; rfl)
          revert this; decide
        | cons d' d =>
          cases f2
          obtain ⟨⟨b, hb, hbv⟩, ⟨b', hb', hbv'⟩⟩ := nuclei_apos hn c d f1
          refine ⟨⟨b, by rw [e1]; simp [List.getLast?_append, hb], hbv⟩, ⟨b', ?_, hbv'⟩⟩
          show (d ++ w).head? = some b'
          rw [List.head?_append, hb']
          rfl
    · exfalso
      cases c with
      | nil =>
        cases n with
        | nil => cases ha
        | cons a' n =>
          cases ha
          cases e2
          revert hav; decide
      | cons c' c =>
        cases e2
        have := hkc '\'' (by rw [e1]; simp)
        revert this; decide
  · intro u ch t hr
    rcases block_run hk hn hr with ⟨-, rfl⟩ | ⟨u', -, hr⟩
    · exact head_mid hk
    · exact h.consonants _ _ _ hr
  · intro u x t hr
    have hx : ∀ {c : Char}, c ∈ x → Vowel c := fun hc => hr.all _ hc
    rcases run_append hr with ⟨t', -, h1⟩ | ⟨u', rfl, h1⟩ | ⟨y1, y2, rfl, hy1, hy2, e, -⟩
    · exfalso
      cases hxe : x with
      | nil => exact h1.some hxe
      | cons c x' =>
        subst hxe
        exact vowel_not_consonant (hx (c := c) (by simp)) (hkc c (by rw [h1.eq]; simp))
    · rcases run_append h1 with ⟨t', -, h2⟩ | ⟨u'', rfl, h2⟩ | ⟨y1, y2, rfl, hy1, hy2, e, e'⟩
      · exact nuclei_run0 hn h2
      · exact h.vowels _ _ _ h2
      · exfalso
        cases y2 with
        | nil => exact hy2 rfl
        | cons c y2 =>
          exact vowel_not_consonant (hx (c := c) (by simp)) (h.first c (by rw [e']; rfl))
    · exfalso
      cases y1 with
      | nil => exact hy1 rfl
      | cons c y1 => exact vowel_not_consonant (hx (c := c) (by simp)) (hkc c (by rw [e]; simp))
  · obtain ⟨m, hm, hs⟩ := block_syllables hk hn h
    exact ⟨m, fun _ => by split at hm <;> omega, hs⟩

/-- A word of blocks sounds right. -/
theorem block_sounds {mz : Bool} {k n w : Str} (hk : Head k) (hn : Nuclei n) (h : Mid mz w) : Sounds mz (k ++ (n ++ w)) := by
  have hm := mid_block hk hn h
  refine ⟨hm.letters, hm.apostrophe, ?_, ?_, ?_, ?_, ?_⟩
  · rintro a b ⟨u, v, e⟩ ha hb
    obtain ⟨u', x, y, t, hr, -, -⟩ := run_around (P := Consonant) (p := u) (m := [a, b]) (s := v) (by simp) (by simp [ha, hb])
    have e' : k ++ (n ++ w) = u ++ [a, b] ++ v := by rw [e]; simp
    rw [← e'] at hr
    exact (hm.consonants _ _ _ hr).pairs a b ⟨x, y, by simp⟩
  · rintro t ht ⟨u, v, e⟩
    have hc : ∀ t ∈ bannedTriples, t ≠ [] ∧ ∀ c ∈ t, Consonant c := by decide
    obtain ⟨u', x, y, t', hr, -, -⟩ := run_around (P := Consonant) (p := u) (m := t) (s := v) (hc t ht).1 (hc t ht).2
    rw [← e] at hr
    exact (hm.consonants _ _ _ hr).triples t ht ⟨x, y, rfl⟩
  · intro ch t hr
    rcases block_run hk hn hr with ⟨-, rfl⟩ | ⟨u', e, -⟩
    · exact head_cluster hk
    · have := congrArg List.length e
      obtain ⟨-, ⟨a, ha, -⟩, -⟩ := nuclei_letters hn
      cases n with
      | nil => cases ha
      | cons _ _ => simp at this
  · intro u ch t hr _
    exact (hm.consonants _ _ _ hr).middle
  · intro u x t hr
    have := hm.vowels _ _ _ hr
    refine ⟨[x], by simp, .one (.inl this), ?_⟩
    intro _ s hs
    cases hs
    exact nucleus_glided this

/-- A consonant between a vowel and a block. -/
theorem mid_coda {mz : Bool} {c d : Char} {k v : Str} (hc : Consonant c) (hk : Head (d :: k)) (hv : VowelInitial v) (h : Mid mz (d :: k ++ v))
    (hp : PermissiblePair mz c d) (ht : ∀ e, k = [e] → [c, d, e] ∉ bannedTriples ∧ ¬ (c = 'm' ∧ d = 'z')) : Mid mz (c :: (d :: k ++ v)) := by
  have hkc := head_consonants hk
  have hvr : ∀ {u y t : Str}, Run Consonant (d :: k ++ v) u y t → u = [] → y = d :: k := by
    rintro u y t hr rfl
    rcases run_append hr with ⟨t', -, h⟩ | ⟨u', e, -⟩ | ⟨y1, y2, rfl, -, hy2, -, e⟩
    · exact (run_whole h hkc).2.1
    · cases e
    · exfalso
      subst e
      cases y2 with
      | nil => exact hy2 rfl
      | cons a y2 => exact vowel_not_consonant hv (hr.all a (by simp))
  refine ⟨?_, ?_, ?_, ?_, ?_, ?_⟩
  · intro a ha; cases ha; exact hc
  · intro a ha
    rcases List.mem_cons.1 ha with rfl | ha
    · exact .inr (.inl hc)
    · exact h.letters a ha
  · intro u t e
    cases u with
    | nil => cases e; exact absurd hc (by decide)
    | cons a u =>
      obtain ⟨rfl, e'⟩ : c = a ∧ d :: k ++ v = u ++ '\'' :: t := List.cons.inj e
      obtain ⟨⟨b, hb, hbv⟩, h2⟩ := h.apostrophe u t e'
      exact ⟨⟨b, by rw [List.getLast?_cons, hb]; rfl, hbv⟩, h2⟩
  · intro u ch t hr
    have hrun : (u = [] ∧ ch = c :: d :: k) ∨ ∃ u', Run Consonant (d :: k ++ v) u' ch t := by
      rcases run_append (a := [c]) (b := d :: k ++ v) hr with ⟨t', e, h1⟩ | ⟨u', rfl, h1⟩ | ⟨y1, y2, rfl, hy1, hy2, e1, e2⟩
      · exfalso
        obtain ⟨rfl, rfl, rfl⟩ := run_whole h1 (by simpa using hc)
        exact hr.after d (by rw [e]; rfl) (hkc d (by simp))
      · exact .inr ⟨u', h1⟩
      · left
        cases y1 with
        | nil => exact absurd rfl hy1
        | cons y y1 =>
          have hl := congrArg List.length e1
          simp at hl
          have hu : u = [] := List.length_eq_zero_iff.1 (by omega)
          have hy : y1 = [] := List.length_eq_zero_iff.1 (by omega)
          subst hu hy
          cases e1
          have hr2 : Run Consonant (d :: k ++ v) [] y2 t := ⟨by rw [e2]; rfl, hy2, fun a ha => hr.all a (by simp [ha]), by simp, hr.after⟩
          exact ⟨rfl, by rw [hvr hr2 rfl]; rfl⟩
    rcases hrun with ⟨-, rfl⟩ | ⟨u', hr⟩
    · rcases hk with ⟨a, e, -⟩ | ⟨a, b, e, hi⟩
      · cases e
        refine ⟨.inl (by simp), ?_, ?_⟩
        · rintro x y ⟨u, v, e⟩
          cases u with
          | nil => cases e; exact hp
          | cons _ u =>
            have := congrArg List.length e
            simp at this
            omega
        · rintro t ht ⟨u, v, e⟩
          have h3 : ∀ t ∈ bannedTriples, t.length = 3 := by decide
          have := congrArg List.length e
          have := h3 t ht
          simp at *
          omega
      · cases e
        obtain ⟨ht1, ht2⟩ := ht b rfl
        refine ⟨.inr ⟨⟨[c], [], [d, b], rfl, by simp, .nil, .two hi, by simp⟩, ?_⟩, ?_, ?_⟩
        · intro x e
          cases e
          exact ht2 ⟨rfl, rfl⟩
        · rintro x y ⟨u, v, e⟩
          match u, e with
          | [], e => cases e; exact hp
          | [_], e => cases e; exact initial_permissible hi
          | _ :: _ :: u, e =>
            have := congrArg List.length e
            simp at this
            omega
        · rintro t ht ⟨u, v, e⟩
          have h3 : ∀ t ∈ bannedTriples, t.length = 3 := by decide
          have h3 := h3 t ht
          have hl := congrArg List.length e
          simp [h3] at hl
          have hu : u = [] := List.length_eq_zero_iff.1 (by omega)
          have hv : v = [] := List.length_eq_zero_iff.1 (by omega)
          subst hu hv
          simp at e
          rw [← e] at ht
          exact ht1 ht
    · exact h.consonants _ _ _ hr
  · intro u x t hr
    rcases run_append (a := [c]) (b := d :: k ++ v) hr with ⟨t', e, h1⟩ | ⟨u', rfl, h1⟩ | ⟨y1, y2, rfl, hy1, hy2, e1, e2⟩
    · exfalso
      cases x with
      | nil => exact h1.some rfl
      | cons a x =>
        have : a ∈ [c] := by rw [h1.eq]; simp
        simp at this
        subst this
        exact vowel_not_consonant (h1.all a (by simp)) hc
    · exact h.vowels _ _ _ h1
    · exfalso
      cases y1 with
      | nil => exact hy1 rfl
      | cons a y1 =>
        have : a ∈ [c] := by rw [e1]; simp
        simp at this
        subst this
        exact vowel_not_consonant (hr.all a (by simp)) hc
  · obtain ⟨m, hm, hs⟩ := h.syllables
    exact ⟨m, fun _ => hm (by simp), fun _ => .letter (.inl hc) (hs _)⟩

/-- Consonants and vowels, and what may follow. -/
def Blk (mz : Bool) (z : Str) : Prop := ∃ k n w, z = k ++ (n ++ w) ∧ Head k ∧ Nuclei n ∧ Mid mz w

theorem blk_mid {mz : Bool} {z : Str} (h : Blk mz z) : Mid mz z := by
  obtain ⟨k, n, w, rfl, h1, h2, h3⟩ := h
  exact mid_block h1 h2 h3

theorem blk_sounds {mz : Bool} {z : Str} (h : Blk mz z) : Sounds mz z := by
  obtain ⟨k, n, w, rfl, h1, h2, h3⟩ := h
  exact block_sounds h1 h2 h3

theorem mid_closed {mz : Bool} {c : Char} {z : Str} (hc : Consonant c) (hz : Blk mz z) (hp : ∀ d, z.head? = some d → PermissiblePair mz c d)
    (ht : ∀ d e t, z = d :: e :: t → [c, d, e] ∉ bannedTriples) (hmz : ∀ e t, Consonant e → c :: z ≠ 'm' :: 'z' :: e :: t) : Mid mz (c :: z) := by
  have hm := blk_mid hz
  obtain ⟨k, n, w, rfl, h1, h2, h3⟩ := hz
  have hv : VowelInitial (n ++ w) := by
    obtain ⟨-, ⟨a, ha, hav⟩, -⟩ := nuclei_letters h2
    cases n with
    | nil => cases ha
    | cons a' n => cases ha; exact hav
  have hkc := head_consonants h1
  cases k with
  | nil => rcases h1 with ⟨a, e, -⟩ | ⟨a, b, e, -⟩ <;> cases e
  | cons d k =>
    refine mid_coda hc h1 hv hm (hp d rfl) ?_
    rintro e rfl
    refine ⟨ht d e (n ++ w) rfl, ?_⟩
    rintro ⟨rfl, rfl⟩
    exact hmz e (n ++ w) (hkc e (by simp)) rfl

end Jvotci
