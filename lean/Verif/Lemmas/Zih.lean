import Verif.Lemmas.Groups

/-!
# Helper lemmas: syllables and the scan of a zi'evla
-/

namespace Jvotci

open Spec

theorem mem_start {s : Str} : s ∈ START_VOWEL_CLUSTERS ↔ Nucleus s := by
  simp only [START_VOWEL_CLUSTERS, Nucleus, List.mem_cons, List.not_mem_nil, or_false]
  grind

theorem mem_follow {s : Str} : s ∈ FOLLOW_VOWEL_CLUSTERS ↔ Glided s := by
  constructor
  · intro h
    have : ∀ s ∈ FOLLOW_VOWEL_CLUSTERS, ∃ c t, s = c :: t ∧ (c = 'i' ∨ c = 'u') ∧ t ∈ START_VOWEL_CLUSTERS := by
      intro s hs
      have h0 : ∀ s ∈ FOLLOW_VOWEL_CLUSTERS, (s.head? = some 'i' ∨ s.head? = some 'u') ∧ s.drop 1 ∈ START_VOWEL_CLUSTERS := by
        decide +kernel
      obtain ⟨h1, h2⟩ := h0 s hs
      cases s with
      | nil => simp at h1
      | cons c t => exact ⟨c, t, rfl, by simpa using h1, h2⟩
    obtain ⟨c, t, rfl, hc, ht⟩ := this s h
    exact ⟨c, t, hc, mem_start.1 ht, rfl⟩
  · rintro ⟨g, n, hg, hn, rfl⟩
    have : ∀ n ∈ START_VOWEL_CLUSTERS, ∀ g ∈ ['i', 'u'], g :: n ∈ FOLLOW_VOWEL_CLUSTERS := by decide +kernel
    exact this n (mem_start.2 hn) g (by simpa using hg)

theorem lastN_append (u v : Str) : lastN (u ++ v) v.length = v := by
  simp [lastN]

theorem dropLastN_append (u v : Str) : dropLastN (u ++ v) v.length = u := by
  simp [dropLastN]

theorem dropLastN_lastN (s : Str) (n : Nat) : dropLastN s n ++ lastN s n = s := by
  simp [dropLastN, lastN]

theorem lastN_length' {s : Str} {n : Nat} (h : n ≤ s.length) : (lastN s n).length = n := by
  simp [lastN]; omega

theorem lastN_eq_iff {s d : Str} : lastN s d.length = d ↔ ∃ u, s = u ++ d := by
  constructor
  · intro h; exact ⟨dropLastN s d.length, by have := dropLastN_lastN s d.length; rw [h] at this; exact this.symm⟩
  · rintro ⟨u, rfl⟩; exact lastN_append u d

theorem badGlide_iff {before next : Str} : badGlide (before ++ next) next = true ↔ GlideClash before next := by
  unfold badGlide GlideClash
  rw [dropLastN_append]
  cases next with
  | nil => simp
  | cons c t =>
    have h2 : ∀ a b : Char, lastN before 2 = [a, b] ↔ ∃ u, before = u ++ [a, b] := fun a b => lastN_eq_iff (d := [a, b])
    have h3 : ([s%"ai", s%"ei", s%"oi"].contains (lastN before 2) = true) ↔
        ∃ d ∈ [s%"ai", s%"ei", s%"oi"], ∃ u, before = u ++ d := by
      rw [List.contains_iff_mem]
      simp only [List.mem_cons, List.not_mem_nil, or_false, exists_eq_or_imp, exists_eq_left, h2]
    dsimp only
    rw [← h3, ← h2]
    simp only [List.head?_cons, Option.some.injEq]
    generalize [s%"ai", s%"ei", s%"oi"].contains (lastN before 2) = P
    by_cases h1 : c = 'i' ∧ P = true
    · simp [h1]
    · by_cases h4 : c = 'u' ∧ lastN before 2 = s%"au"
      · simp [h4]
      · rw [if_neg h1, if_neg h4]
        simp only [h1, h4, or_self, Bool.false_eq_true]

theorem glided_length {s : Str} (h : Glided s) : s.length = 2 ∨ s.length = 3 := by
  have : ∀ s ∈ FOLLOW_VOWEL_CLUSTERS, s.length = 2 ∨ s.length = 3 := by decide +kernel
  exact this s (mem_follow.2 h)

theorem nucleus_length {s : Str} (h : Nucleus s) : s.length = 1 ∨ s.length = 2 := by
  have : ∀ s ∈ START_VOWEL_CLUSTERS, s.length = 1 ∨ s.length = 2 := by decide +kernel
  exact this s (mem_start.2 h)

theorem vowelRun_ne {l : List Str} (h : VowelRun l) : l.flatten ≠ [] := by
  induction h with
  | one h =>
    rcases h with h | h
    · have := nucleus_length h; intro e; simp at e; subst e; simp at this
    · have := glided_length h; intro e; simp at e; subst e; simp at this
  | more _ _ _ ih => simp only [List.flatten_append]; intro e; exact ih (List.append_eq_nil_iff.1 e).1

theorem splitVowelsLoop_sound : ∀ {fuel : Nat} {v : Str} {res syls : List Str},
    splitVowelsLoop fuel v res = .ok syls → ∃ l, syls = l ++ res ∧ l.flatten = v ∧ VowelRun l := by
  intro fuel
  induction fuel with
  | zero => intro v res syls h; cases h
  | succ fuel ih =>
    intro v res syls h
    have step : ∀ n, v.length > n → 0 < n → FOLLOW_VOWEL_CLUSTERS.contains (lastN v n) = true →
        badGlide v (lastN v n) = false → splitVowelsLoop fuel (dropLastN v n) (lastN v n :: res) = .ok syls →
        ∃ l, syls = l ++ res ∧ l.flatten = v ∧ VowelRun l := by
      intro n hn hn0 hf hb h
      obtain ⟨l, h1, h2, h3⟩ := ih h
      have e := dropLastN_lastN v n
      refine ⟨l ++ [lastN v n], by simp [h1], by simp [h2, e], .more h3 (mem_follow.1 (List.contains_iff_mem.1 hf)) ?_⟩
      rw [h2, ← badGlide_iff, e, hb]; simp
    unfold splitVowelsLoop at h
    split at h
    · rename_i h1
      split at h
      · cases h
      · rename_i hb; exact step 3 h1.1 (by omega) h1.2 (by simpa using hb) h
    · split at h
      · rename_i h1
        split at h
        · cases h
        · rename_i hb; exact step 2 h1.1 (by omega) h1.2 (by simpa using hb) h
      · split at h
        · rename_i h1
          cases h
          refine ⟨[v], rfl, by simp, .one ?_⟩
          simp only [Bool.or_eq_true, List.contains_iff_mem, mem_start, mem_follow] at h1
          exact h1
        · cases h

theorem follow_tail : ∀ s ∈ FOLLOW_VOWEL_CLUSTERS, s.drop 1 ∉ FOLLOW_VOWEL_CLUSTERS ∨ s.length = 2 := by
  decide +kernel

theorem splitVowelsLoop_complete {l : List Str} (h : VowelRun l) : ∀ {fuel : Nat} {res : List Str},
    l.flatten.length < fuel → splitVowelsLoop fuel l.flatten res = .ok (l ++ res) := by
  induction h with
  | @one s h =>
    intro fuel res hf
    cases fuel with
    | zero => omega
    | succ fuel =>
      simp only [List.flatten_cons, List.flatten_nil, List.append_nil]
      have hlen : s.length ≤ 3 := by
        rcases h with h | h
        · have := nucleus_length h; omega
        · have := glided_length h; omega
      unfold splitVowelsLoop
      rw [if_neg (by omega)]
      rw [if_neg, if_pos]
      · rfl
      · simp only [Bool.or_eq_true, List.contains_iff_mem, mem_start, mem_follow]; exact h
      · rintro ⟨h2, h3⟩
        have h3l : s.length = 3 := by omega
        rcases h with h | h
        · have := nucleus_length h; omega
        · rcases follow_tail s (mem_follow.2 h) with h4 | h4
          · apply h4
            rw [List.contains_iff_mem] at h3
            have : lastN s 2 = s.drop 1 := by simp [lastN, h3l]
            rw [this] at h3
            exact h3
          · omega
  | @more l s hl hs hc ih =>
    intro fuel res hf
    cases fuel with
    | zero => omega
    | succ fuel =>
      have hne := vowelRun_ne hl
      have hpos : 0 < l.flatten.length := List.length_pos_iff.2 hne
      rw [List.flatten_append] at hf ⊢
      simp only [List.flatten_cons, List.flatten_nil, List.append_nil, List.length_append] at hf ⊢
      have hslen := glided_length hs
      have hb : badGlide (l.flatten ++ s) s = false := by
        cases hb : badGlide (l.flatten ++ s) s with
        | false => rfl
        | true => exact absurd (badGlide_iff.1 hb) hc
      have hsf : FOLLOW_VOWEL_CLUSTERS.contains s = true := by rw [List.contains_iff_mem]; exact mem_follow.2 hs
      have hrec := ih (fuel := fuel) (res := s :: res) (by omega)
      have e3 : s.length = 3 → lastN (l.flatten ++ s) 3 = s ∧ dropLastN (l.flatten ++ s) 3 = l.flatten := by
        intro h; rw [← h]; exact ⟨lastN_append _ _, dropLastN_append _ _⟩
      have e2 : s.length = 2 → lastN (l.flatten ++ s) 2 = s ∧ dropLastN (l.flatten ++ s) 2 = l.flatten := by
        intro h; rw [← h]; exact ⟨lastN_append _ _, dropLastN_append _ _⟩
      unfold splitVowelsLoop
      rcases hslen with h2 | h3
      · rw [if_neg, (e2 h2).1, (e2 h2).2, if_pos ⟨by rw [List.length_append]; omega, hsf⟩, hb, if_neg (by simp), hrec]
        · simp
        · rintro ⟨hl3, hf3⟩
          rw [List.contains_iff_mem] at hf3
          have hd : (lastN (l.flatten ++ s) 3).drop 1 = s := by
            have : (lastN (l.flatten ++ s) 3).drop 1 = lastN (l.flatten ++ s) 2 := by
              simp only [lastN, List.drop_drop]
              congr 1
              omega
            rw [this, (e2 h2).1]
          rcases follow_tail _ hf3 with h | h
          · rw [hd] at h; exact h (mem_follow.2 hs)
          · rw [lastN_length' (by omega)] at h; omega
      · rw [(e3 h3).1, (e3 h3).2, if_pos ⟨by rw [List.length_append]; omega, hsf⟩, hb, if_neg (by simp), hrec]
        simp

theorem splitVowelCluster_iff {v : Str} {syls : List Str} :
    splitVowelCluster v = .ok syls ↔ syls.flatten = v ∧ VowelRun syls := by
  constructor
  · intro h
    obtain ⟨l, h1, h2, h3⟩ := splitVowelsLoop_sound h
    rw [List.append_nil] at h1
    subst h1
    exact ⟨h2, h3⟩
  · rintro ⟨rfl, h⟩
    have := splitVowelsLoop_complete h (fuel := syls.flatten.length + 1) (res := []) (by omega)
    rw [List.append_nil] at this
    exact this

theorem nucleus_head {s : Str} (h : Nucleus s) : ∃ c t, s = c :: t ∧ Vowel c := by
  have : ∀ s ∈ START_VOWEL_CLUSTERS, ∃ c ∈ ['a', 'e', 'i', 'o', 'u'], s.head? = some c := by decide +kernel
  obtain ⟨c, hc, e⟩ := this s (mem_start.2 h)
  cases s with
  | nil => cases e
  | cons d t => cases e; exact ⟨_, t, rfl, hc⟩

theorem glided_head {s : Str} (h : Glided s) : ∃ c t, s = c :: t ∧ Vowel c := by
  obtain ⟨g, n, hg, -, rfl⟩ := h
  exact ⟨g, n, rfl, by rcases hg with rfl | rfl <;> decide⟩

/-- Before a letter that is no vowel it does not matter what came before. -/
theorem syllables_any {b b' : Before} {w : Str} {n : Nat} (h : Syllables b w n)
    (hw : ∀ c, w.head? = some c → ¬ Vowel c) : Syllables b' w n := by
  cases h with
  | nil => exact .nil
  | letter h1 h2 => exact .letter h1 h2
  | nucleus _ h1 _ =>
    obtain ⟨c, t, rfl, hc⟩ := nucleus_head h1
    exact absurd hc (hw c rfl)
  | glided _ h1 _ =>
    obtain ⟨c, t, rfl, hc⟩ := glided_head h1
    exact absurd hc (hw c rfl)

theorem vowelRun_syllables {l : List Str} (h : VowelRun l) : ∀ {b : Before} {w : Str} {n : Nat},
    Syllables .vowel w n → (b = .nothing ∨ b = .letter ∧ ∀ s0 ss, l = s0 :: ss → ¬ Glided s0) →
    Syllables b (l.flatten ++ w) (n + l.length) := by
  induction h with
  | one h =>
    intro b w n hw hb
    simp only [List.flatten_cons, List.flatten_nil, List.append_nil, List.length_singleton]
    rcases h with h | h
    · exact .nucleus (by rcases hb with rfl | ⟨rfl, -⟩ <;> simp) h hw
    · refine .glided ?_ h hw
      rcases hb with rfl | ⟨rfl, hb⟩
      · simp
      · exact absurd h (hb _ _ rfl)
  | @more l s hl hs hc ih =>
    intro b w n hw hb
    have := ih (b := b) (w := s ++ w) (n := n + 1) (.glided (by simp) hs hw) (by
      rcases hb with rfl | ⟨rfl, hb⟩
      · exact .inl rfl
      · refine .inr ⟨rfl, ?_⟩
        rintro s0 ss rfl
        exact hb s0 (ss ++ [s]) rfl)
    simp only [List.flatten_append, List.flatten_cons, List.flatten_nil, List.append_nil, List.length_append,
      List.length_singleton, List.append_assoc]
    have e : n + (l.length + 1) = n + 1 + l.length := by omega
    rw [e]
    exact this

theorem consonants_syllables {ch w : Str} {n : Nat} (hch : ∀ c ∈ ch, isConsonant c = true) (hne : ch ≠ [])
    (h : Syllables .letter w n) {b : Before} : Syllables b (ch ++ w) n := by
  induction ch generalizing b with
  | nil => exact absurd rfl hne
  | cons c ch ih =>
    refine .letter (.inl ((isConsonant_iff c).1 (hch c (by simp)))) ?_
    by_cases hc : ch = []
    · subst hc; exact h
    · exact ih (fun d hd => hch d (by simp [hd])) hc

/-- The scan counts syllables. -/
theorem zihScan_syllables {mz : Bool} {v : Str} : ∀ {fuel : Nat} {rest pre : Str} {st st' : ZState},
    zihScan mz v fuel rest st = .ok st' → v = pre ++ rest → st.pos = pre.length →
    ∃ n, Syllables (if pre = [] then .nothing else .letter) rest n ∧ st'.numSyllables = st.numSyllables + n := by
  intro fuel
  induction fuel with
  | zero => intro rest pre st st' h; cases h
  | succ fuel ih =>
    intro rest pre st st' h hv hp
    cases rest with
    | nil => cases h; exact ⟨0, .nil, rfl⟩
    | cons c cs =>
      unfold zihScan at h
      split at h
      · rename_i hc
        obtain ⟨st1, h1, h⟩ := bind_ok h
        obtain ⟨rfl, -⟩ := zihConsonants_ok h1
        have hne := takeWhile_ne_nil (w := cs) hc
        have hall := takeWhile_all (p := isConsonant) (w := c :: cs)
        have heq : c :: cs = (c :: cs).takeWhile isConsonant ++ (c :: cs).dropWhile isConsonant :=
          List.takeWhile_append_dropWhile.symm
        generalize (c :: cs).takeWhile isConsonant = chunk at *
        generalize (c :: cs).dropWhile isConsonant = rest' at *
        obtain ⟨n, h2, h3⟩ := ih (pre := pre ++ chunk) h (by rw [hv, heq]; simp) (by simp [hp])
        rw [if_neg (by simp [hne])] at h2
        refine ⟨n, ?_, h3⟩
        rw [heq]
        exact consonants_syllables hall hne h2
      · split at h
        · rename_i hvw
          obtain ⟨st1, h1, h⟩ := bind_ok h
          obtain ⟨sy, hsy, rfl, hfv⟩ := zihVowels_ok h1
          have hne := takeWhile_ne_nil (w := cs) hvw
          have heq : c :: cs = (c :: cs).takeWhile isVowel ++ (c :: cs).dropWhile isVowel :=
            List.takeWhile_append_dropWhile.symm
          have hhead : ∀ d, ((c :: cs).dropWhile isVowel).head? = some d → isVowel d = false :=
            fun d hd => dropWhile_head hd
          generalize (c :: cs).takeWhile isVowel = chunk at *
          generalize (c :: cs).dropWhile isVowel = rest' at *
          obtain ⟨n, h2, h3⟩ := ih (pre := pre ++ chunk) h (by rw [hv, heq]; simp) (by simp [hp])
          obtain ⟨e, hrun⟩ := splitVowelCluster_iff.1 hsy
          refine ⟨n + sy.length, ?_, by rw [h3]; dsimp only; omega⟩
          rw [heq, ← e]
          refine vowelRun_syllables hrun (syllables_any h2 (fun d hd => isVowel_false.1 (hhead d hd))) ?_
          by_cases hpre : pre = []
          · left; simp [hpre]
          · right
            refine ⟨by simp [hpre], ?_⟩
            intro s0 ss e' hg
            have := hfv (by rw [hp]; intro h0; exact hpre (List.length_eq_zero_iff.1 h0)) s0 ss e'
            exact this (mem_follow.2 hg)
        · split at h
          · rename_i hap
            subst hap
            obtain ⟨hb1, h⟩ := ite_error_ok h
            obtain ⟨hb2, h⟩ := ite_error_ok h
            obtain ⟨n, h2, h3⟩ := ih (pre := pre ++ ['\'']) h (by rw [hv]; simp) (by simp [hp])
            rw [if_neg (by simp)] at h2
            exact ⟨n, .letter (.inr rfl) h2, h3⟩
          · cases h

/-- The first consonant cluster of `v` is `ch`, between `u` and `t`. -/
structure FirstCluster (v u ch t : Str) : Prop where
  eq : v = u ++ ch ++ t
  consonants : ∀ c ∈ ch, Consonant c
  long : 2 ≤ ch.length
  before : ∀ c, u.getLast? = some c → ¬ Consonant c
  after : ∀ c, t.head? = some c → ¬ Consonant c
  first : ∀ a b, Adjacent u a b → ¬ (Consonant a ∧ Consonant b)
  few : (u.filter (fun c => Consonant c)).length ≤ 1
  initial : u = [] → (∃ a b, ch = [a, b] ∧ InitialPair a b) ∨ ∃ a b c, ch = [a, b, c] ∧ InitialPair a b ∧ InitialPair b c

theorem filter_cons {w : Str} (h : ∀ c ∈ w, isConsonant c = true) : w.filter (fun c => Consonant c) = w := by
  rw [List.filter_eq_self]
  intro c hc
  simpa using (isConsonant_iff c).1 (h c hc)

theorem filter_not_cons {w : Str} (h : ∀ c ∈ w, isConsonant c = false) : w.filter (fun c => Consonant c) = [] := by
  rw [List.filter_eq_nil_iff]
  intro c hc
  simpa using isConsonant_false.1 (h c hc)

theorem initialCluster_ok {ch : Str} (h : isZihevlaInitialCluster ch = true) (hl : 2 ≤ ch.length) :
    (∃ a b, ch = [a, b] ∧ InitialPair a b) ∨ ∃ a b c, ch = [a, b, c] ∧ InitialPair a b ∧ InitialPair b c := by
  have hi : ∀ a b, INITIAL.contains [a, b] = true → InitialPair a b := by
    intro a b h; exact initial_contains.1 h
  have hz : ∀ p, p ∈ ZIhEVLA_INITIAL → p ∈ INITIAL := by decide +kernel
  unfold isZihevlaInitialCluster at h
  match ch, hl with
  | [a, b], _ =>
    left
    simp at h
    exact ⟨a, b, rfl, hi a b (by rw [List.contains_iff_mem]; exact h)⟩
  | [a, b, c], _ =>
    right
    simp [slice] at h
    exact ⟨a, b, c, rfl, hi a b (by rw [List.contains_iff_mem]; exact h.1), hi b c (by rw [List.contains_iff_mem]; exact hz _ h.2)⟩
  | a :: b :: c :: d :: ch, _ =>
    simp at h

theorem zihScan_cluster {mz : Bool} {v : Str} : ∀ {fuel : Nat} {rest pre : Str} {st st' : ZState},
    zihScan mz v fuel rest st = .ok st' → v = pre ++ rest → st.pos = pre.length →
    st.numConsonants = (pre.filter (fun c => Consonant c)).length →
    (st.clusterPos = none → ∀ a b, Adjacent pre a b → ¬ (Consonant a ∧ Consonant b)) →
    (∀ a b, pre.getLast? = some a → rest.head? = some b → ¬ (Consonant a ∧ Consonant b)) →
    (st.clusterPos ≠ none → ∃ u ch t, FirstCluster v u ch t ∧ st.clusterPos = some u.length) →
    st'.numConsonants = (v.filter (fun c => Consonant c)).length ∧
    (st'.clusterPos = none → ∀ a b, Adjacent v a b → ¬ (Consonant a ∧ Consonant b)) ∧
    (st'.clusterPos ≠ none → ∃ u ch t, FirstCluster v u ch t ∧ st'.clusterPos = some u.length) := by
  intro fuel
  induction fuel with
  | zero => intro rest pre st st' h; cases h
  | succ fuel ih =>
    intro rest pre st st' h hv hp hn hnone hadj hsome
    cases rest with
    | nil => cases h; simp at hv; subst hv; exact ⟨hn, hnone, hsome⟩
    | cons c cs =>
      unfold zihScan at h
      split at h
      · rename_i hc
        obtain ⟨st1, h1, h⟩ := bind_ok h
        obtain ⟨rfl, hfew, -, -, -, hinit, -⟩ := zihConsonants_ok h1
        have hne := takeWhile_ne_nil (w := cs) hc
        have hall := takeWhile_all (p := isConsonant) (w := c :: cs)
        have heq : c :: cs = (c :: cs).takeWhile isConsonant ++ (c :: cs).dropWhile isConsonant :=
          List.takeWhile_append_dropWhile.symm
        have hhead : ∀ d, ((c :: cs).dropWhile isConsonant).head? = some d → isConsonant d = false :=
          fun d hd => dropWhile_head hd
        have hpre : ∀ a, pre.getLast? = some a → ¬ Consonant a :=
          fun a ha hca => hadj a c ha rfl ⟨hca, (isConsonant_iff c).1 hc⟩
        generalize (c :: cs).takeWhile isConsonant = chunk at *
        generalize (c :: cs).dropWhile isConsonant = rest' at *
        refine ih (pre := pre ++ chunk) h (by rw [hv, heq]; simp) (by simp [hp]) ?_ ?_ ?_ ?_
        · simp only [List.filter_append, List.length_append, filter_cons hall, hn]
        · intro hcp
          dsimp only at hcp
          split at hcp
          · cases hcp
          · rename_i hlen
            have hlen : chunk.length < 2 := by
              apply Nat.lt_of_not_le; intro hl; exact hlen ⟨hl, hcp⟩
            have hx : ∃ x, chunk = [x] := by
              match chunk, hne, hlen with
              | [x], _, _ => exact ⟨x, rfl⟩
              | _ :: _ :: _, _, h => simp at h; omega
            obtain ⟨x, rfl⟩ := hx
            have hQ : AdjAll (fun a b => ¬ (Consonant a ∧ Consonant b)) (pre ++ [x]) :=
              adjAll_append.2 ⟨hnone hcp, adjAll_single, fun a b ha _ hab => hpre a ha hab.1⟩
            exact hQ
        · intro a b _ hb hab
          exact isConsonant_false.1 (hhead b hb) hab.2
        · intro hcp
          dsimp only at hcp ⊢
          split
          · rename_i hl
            refine ⟨pre, chunk, rest', ⟨by rw [hv, heq, List.append_assoc], fun d hd => (isConsonant_iff d).1 (hall d hd), hl.1, hpre,
              fun d hd => isConsonant_false.1 (hhead d hd), hnone hl.2, ?_, ?_⟩, by rw [hp]⟩
            · rw [← hn]; exact hfew hl.1 hl.2
            · rintro rfl
              exact initialCluster_ok (hinit hp) hl.1
          · rename_i hl
            rw [if_neg hl] at hcp
            exact hsome hcp
      · rename_i hcc
        have hcc : isConsonant c = false := by simpa using hcc
        split at h
        · rename_i hvw
          obtain ⟨st1, h1, h⟩ := bind_ok h
          obtain ⟨sy, hsy, rfl, hfv⟩ := zihVowels_ok h1
          have hne := takeWhile_ne_nil (w := cs) hvw
          have hall := takeWhile_all (p := isVowel) (w := c :: cs)
          have heq : c :: cs = (c :: cs).takeWhile isVowel ++ (c :: cs).dropWhile isVowel :=
            List.takeWhile_append_dropWhile.symm
          generalize (c :: cs).takeWhile isVowel = chunk at *
          generalize (c :: cs).dropWhile isVowel = rest' at *
          have hnc : ∀ d ∈ chunk, isConsonant d = false := fun d hd => not_consonant_of_vowel (hall d hd)
          refine ih (pre := pre ++ chunk) h (by rw [hv, heq]; simp) (by simp [hp]) ?_ ?_ ?_ hsome
          · simp only [List.filter_append, List.length_append, filter_not_cons hnc, hn]; simp
          · intro hcp
            have hQ : AdjAll (fun a b => ¬ (Consonant a ∧ Consonant b)) (pre ++ chunk) := by
              refine adjAll_append.2 ⟨hnone hcp, ?_, ?_⟩
              · rintro a b ⟨x, z, e⟩ hab
                exact isConsonant_false.1 (hnc a (by rw [e]; simp)) hab.1
              · intro a b _ hb hab
                have hm : b ∈ chunk := by
                  cases chunk with
                  | nil => cases hb
                  | cons z chunk => cases hb; simp
                exact isConsonant_false.1 (hnc b hm) hab.2
            exact hQ
          · intro a b ha hb hab
            rw [getLast?_append_ne _ hne] at ha
            exact isConsonant_false.1 (hnc a (getLast_mem ha)) hab.1
        · split at h
          · rename_i hap
            subst hap
            obtain ⟨hb1, h⟩ := ite_error_ok h
            obtain ⟨hb2, h⟩ := ite_error_ok h
            have hnc : ¬ Consonant '\'' := by decide
            refine ih (pre := pre ++ ['\'']) h (by rw [hv]; simp) (by simp [hp]) ?_ ?_ ?_ hsome
            · simp [List.filter_append, hn, hnc]
            · intro hcp
              have hQ : AdjAll (fun a b => ¬ (Consonant a ∧ Consonant b)) (pre ++ ['\'']) :=
                adjAll_append.2 ⟨hnone hcp, adjAll_single, fun a b _ hb hab => by cases hb; exact hnc hab.2⟩
              exact hQ
            · intro a b ha hb hab
              have ha : '\'' = a := by simpa using ha
              subst ha
              exact hnc hab.1
          · cases h

/-- What `check_zihevla_or_rafsi` establishes. -/
theorem checkZihevlaOrRafsi_shape {R : Rec} {rz : Bool} {y : YHyphens} {ex mz : Bool} {v : Str} {sh : Shape}
    (h : checkZihevlaOrRafsi R rz y ex mz v = .ok sh) :
    (rz = true → 4 ≤ v.length) ∧
    (∃ n, Syllables .nothing v n ∧ (rz = true ∨ ex = false → 2 ≤ n)) ∧
    (sh = .zihevla → ∃ u ch t, FirstCluster v u ch t) ∧
    (sh = .rafsi → rz = false ∧ (∀ a b, Adjacent v a b → ¬ (Consonant a ∧ Consonant b)) ∧
      (v.filter (fun c => Consonant c)).length ≤ 1 ∧ ∃ c, v.head? = some c ∧ (Consonant c ∨ ex = true)) := by
  obtain ⟨st, hst, h4, h2, hnone, hsome⟩ := checkZihevlaOrRafsi_scan h
  obtain ⟨n, hs, hn⟩ := zihScan_syllables (pre := []) hst rfl rfl
  obtain ⟨c1, c2, c3⟩ := zihScan_cluster (pre := []) hst rfl rfl rfl
    (fun _ a b hab => by obtain ⟨x, z, e⟩ := hab; simp at e) (by simp) (fun hh => absurd rfl hh)
  simp only [if_true] at hs
  have hn : st.numSyllables = n := by rw [hn]; simp
  refine ⟨h4, ⟨n, hs, fun hh => by rw [← hn]; exact h2 hh⟩, ?_, ?_⟩
  · intro e
    cases hc : st.clusterPos with
    | none => have := (hnone hc).1; rw [e] at this; cases this
    | some p =>
      obtain ⟨u, ch, t, h, -⟩ := c3 (by rw [hc]; simp)
      exact ⟨u, ch, t, h⟩
  · intro e
    cases hc : st.clusterPos with
    | some p => have := hsome (by rw [hc]; simp); rw [e] at this; cases this
    | none =>
      obtain ⟨-, hrz, hnc, -, c, hc0, hcx⟩ := hnone hc
      refine ⟨hrz, c2 hc, by rw [← c1]; exact hnc, c, by rw [List.head?_eq_getElem?]; exact hc0, ?_⟩
      rw [isConsonant_iff] at hcx
      exact hcx

/-- The last run of consonants begins at `finalConsonantPos`. -/
theorem zihScan_final {mz : Bool} {v : Str} : ∀ {fuel : Nat} {rest pre : Str} {st st' : ZState},
    zihScan mz v fuel rest st = .ok st' → v = pre ++ rest → st.pos = pre.length →
    (∃ a k z, pre = a ++ k ++ z ∧ a.length = st.finalConsonantPos ∧ (∀ c ∈ k, isConsonant c = true) ∧ ∀ c ∈ z, isConsonant c = false) →
    ∃ a k z, v = a ++ k ++ z ∧ a.length = st'.finalConsonantPos ∧ (∀ c ∈ k, isConsonant c = true) ∧ ∀ c ∈ z, isConsonant c = false := by
  intro fuel
  induction fuel with
  | zero => intro rest pre st st' h; cases h
  | succ fuel ih =>
    intro rest pre st st' h hv hp hinv
    cases rest with
    | nil => cases h; simp at hv; subst hv; exact hinv
    | cons c cs =>
      unfold zihScan at h
      split at h
      · rename_i hc
        obtain ⟨st1, h1, h⟩ := bind_ok h
        obtain ⟨rfl, -⟩ := zihConsonants_ok h1
        have hall := takeWhile_all (p := isConsonant) (w := c :: cs)
        have heq : c :: cs = (c :: cs).takeWhile isConsonant ++ (c :: cs).dropWhile isConsonant :=
          List.takeWhile_append_dropWhile.symm
        generalize (c :: cs).takeWhile isConsonant = chunk at *
        generalize (c :: cs).dropWhile isConsonant = rest' at *
        exact ih (pre := pre ++ chunk) h (by rw [hv, heq]; simp) (by simp [hp]) ⟨pre, chunk, [], by simp, hp.symm, hall, by simp⟩
      · split at h
        · obtain ⟨st1, h1, h⟩ := bind_ok h
          obtain ⟨sy, hsy, rfl, hfv⟩ := zihVowels_ok h1
          have hall := takeWhile_all (p := isVowel) (w := c :: cs)
          have heq : c :: cs = (c :: cs).takeWhile isVowel ++ (c :: cs).dropWhile isVowel :=
            List.takeWhile_append_dropWhile.symm
          generalize (c :: cs).takeWhile isVowel = chunk at *
          generalize (c :: cs).dropWhile isVowel = rest' at *
          have hnc : ∀ d ∈ chunk, isConsonant d = false := fun d hd => not_consonant_of_vowel (hall d hd)
          refine ih (pre := pre ++ chunk) h (by rw [hv, heq]; simp) (by simp [hp]) ?_
          obtain ⟨a, k, z, e, h1, h2, h3⟩ := hinv
          refine ⟨a, k, z ++ chunk, by rw [e]; simp, h1, h2, ?_⟩
          intro d hd
          rcases List.mem_append.1 hd with hd | hd
          · exact h3 d hd
          · exact hnc d hd
        · split at h
          · rename_i hap
            subst hap
            obtain ⟨hb1, h⟩ := ite_error_ok h
            obtain ⟨hb2, h⟩ := ite_error_ok h
            refine ih (pre := pre ++ ['\'']) h (by rw [hv]; simp) (by simp [hp]) ?_
            obtain ⟨a, k, z, e, h1, h2, h3⟩ := hinv
            refine ⟨a, k, z ++ ['\''], by rw [e]; simp, h1, h2, ?_⟩
            intro d hd
            rcases List.mem_append.1 hd with hd | hd
            · exact h3 d hd
            · simp at hd; subst hd; decide
          · cases h

/-- An experimental rafsi has at most one consonant, its first letter. -/
theorem checkZihevlaOrRafsi_consonant {R : Rec} {rz : Bool} {y : YHyphens} {ex mz : Bool} {v : Str}
    (h : checkZihevlaOrRafsi R rz y ex mz v = .ok .rafsi) : ∀ c ∈ v.drop 1, ¬ Consonant c := by
  obtain ⟨st, hst, h4, h2, hnone, hsome⟩ := checkZihevlaOrRafsi_scan h
  have hcp : st.clusterPos = none := by
    cases hc : st.clusterPos with
    | none => rfl
    | some p => have := hsome (by rw [hc]; simp); cases this
  obtain ⟨-, -, hn, hf, -⟩ := hnone hcp
  obtain ⟨c1, -, -⟩ := zihScan_cluster (pre := []) hst rfl rfl rfl
    (fun _ a b hab => by obtain ⟨x, z, e⟩ := hab; simp at e) (by simp) (fun hh => absurd rfl hh)
  obtain ⟨a, k, z, e, ha, hk, hz⟩ := zihScan_final (pre := []) hst rfl rfl ⟨[], [], [], rfl, rfl, by simp, by simp⟩
  rw [hf] at ha
  cases List.eq_nil_of_length_eq_zero ha
  have hkl : k.length ≤ 1 := by
    rw [c1, e, List.nil_append, List.filter_append, filter_cons hk] at hn
    simp at hn; omega
  intro c hc
  apply isConsonant_false.1
  apply hz
  rw [e, List.nil_append] at hc
  match k, hkl with
  | [], _ => exact List.mem_of_mem_drop hc
  | [x], _ => simpa using hc

end Jvotci
