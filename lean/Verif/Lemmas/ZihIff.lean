import Verif.Lemmas.Scan
import Verif.Lemmas.CleanY
import Verif.Props.Lujvo

/-!
# Helper lemmas: what `check_zihevla_or_rafsi` accepts as a zi'evla
-/

namespace Jvotci

open Spec

/-- `jvokaha` accepts the lujvo and nothing else that ends in a vowel. -/
theorem jvokaha_lujvo {s : Settings} {v : Str} (hv : ∃ c, v.getLast? = some c ∧ Vowel c) (hlen : v.length < 10 ^ 96) :
    (∃ ps, jvokaha (program .linked) s.yHyphens s.consonants s.glides s.allowMz v = .ok ps) ↔
      ∃ ps, LujvoPieces s ps ∧ ps.flatten = v := by
  obtain ⟨c, hc, hcv⟩ := hv
  constructor
  · rintro ⟨ps, hk⟩
    obtain ⟨c', l, m, hc', rfl, hj, hM, hA, hE, hF, hd⟩ := jvokaha_canon hk
    rw [hc] at hc'
    cases hc'
    rw [not_consonant_of_vowel ((isVowel_iff c).2 hcv)] at hM hA
    exact ⟨_, lujvoPieces_settings (s := kahaSettings s.yHyphens s.consonants s.glides s.allowMz) rfl rfl rfl (made_lujvoPieces hM hA hE hd), hj⟩
  · rintro ⟨ps, h, rfl⟩
    obtain ⟨l, m, rfl, hM, hA, hE, hF, hd⟩ := lujvoPieces_made (s := kahaSettings s.yHyphens s.consonants s.glides s.allowMz) (lujvoPieces_settings (s := s) rfl rfl rfl h)
    rw [flat_spell] at hlen ⊢
    have hns := canon_not_slinkuhi hM (by
      obtain ⟨c, h1, h2⟩ := hA.ends
      exact ⟨c, h1, by simpa using h2⟩)
    exact ⟨_, jvokaha_accepts hM hA hE hF hd (cost_bound hE hlen) (fun _ => ⟨rfl, hns⟩)⟩

/-- On words without y that end in a vowel `jvokaha` raises only what its callers expect. -/
theorem jvokaha_fails {y : YHyphens} {co : Consonants} {gl mz : Bool} {v : Str} (hv : ∃ c, v.getLast? = some c ∧ Vowel c) (hy : 'y' ∉ v) :
    Errs [.decomposition, .invalidCluster] (jvokaha (program .linked) y co gl mz v) := by
  obtain ⟨c, hc, hcv⟩ := hv
  refine jvokaha_clean (fun _ => slice_no_y hy) ⟨c, hc, .inl hcv⟩ fun _ h => ?_
  rw [loneR_last h] at hc
  cases hc
  revert hcv; decide

theorem isGlide_iff (t : Str) : isGlide t = true ↔ Onglide t := by
  match t with
  | [] => simp [isGlide, Onglide]
  | [_] => simp [isGlide, Onglide]
  | a :: b :: t => simp [isGlide, Onglide, isVowel_iff]

theorem fallsApart_iff {R : Rec} {y : YHyphens} {v : Str} {p : Nat} (hp : p < v.length) : ∀ k i, i + k ≤ p →
    (fallsApartBefore R y v p k i = .ok () ↔ ∀ m, i ≤ m → m < i + k →
      ConsonantInitial (v.drop (p - m)) ∨ Onglide (v.drop (p - m)) → isBrivlaR R { yHyphens := y } (v.drop (p - m)) = .ok false) := by
  intro k
  induction k with
  | zero => intro i _; simp only [fallsApartBefore, true_iff]; intro m h1 h2; omega
  | succ k ih =>
    intro i hi
    have ih := ih (i + 1) (by omega)
    have hlt : p - i < v.length := by omega
    have hd : v.drop (p - i) = v[p - i] :: v.drop (p - i + 1) := List.drop_eq_getElem_cons hlt
    have hci : (isConsonant v[p - i] || isGlide (v.drop (p - i))) = true ↔ ConsonantInitial (v.drop (p - i)) ∨ Onglide (v.drop (p - i)) := by
      rw [Bool.or_eq_true, isGlide_iff, isConsonant_iff]
      rw [hd]
      rfl
    unfold fallsApartBefore
    dsimp only
    rw [show idx v (p - i) = .ok v[p - i] by unfold idx; rw [List.getElem?_eq_getElem hlt], ok_bind]
    have hsplit : ∀ (P : Nat → Prop), (∀ m, i ≤ m → m < i + (k + 1) → P m) ↔ (P i ∧ ∀ m, i + 1 ≤ m → m < i + 1 + k → P m) := by
      intro P
      constructor
      · intro h; exact ⟨h i (by omega) (by omega), fun m h1 h2 => h m (by omega) (by omega)⟩
      · rintro ⟨h1, h2⟩ m h3 h4
        rcases Nat.eq_or_lt_of_le h3 with rfl | h5
        · exact h1
        · exact h2 m (by omega) (by omega)
    rw [hsplit, ← ih]
    by_cases hc : (isConsonant v[p - i] || isGlide (v.drop (p - i))) = true
    · rw [if_pos hc]
      rw [hci] at hc
      cases hb : isBrivlaR R { yHyphens := y } (v.drop (p - i)) with
      | error e => simp [hc, error_bind]
      | ok t => cases t <;> simp [hc, ok_bind]
    · rw [if_neg hc]
      rw [hci] at hc
      simp [hc]

/-- `t` is what is left of `v` if something without two adjacent consonants is cut off before a consonant or on-glide. -/
def CutTail (v t : Str) : Prop :=
  ∃ u, v = u ++ t ∧ u ≠ [] ∧ (ConsonantInitial t ∨ Onglide t) ∧
    ∀ a b, Adjacent (u ++ t.take 1) a b → ¬ (Consonant a ∧ Consonant b)

/-- The part before the first cluster. -/
theorem tail_iff {v u0 ch t0 u t : Str} (h : FirstCluster v u0 ch t0) (e : v = u ++ t) (ht : t ≠ []) :
    (∀ a b, Adjacent (u ++ t.take 1) a b → ¬ (Consonant a ∧ Consonant b)) ↔ u.length ≤ u0.length := by
  have hch := h.long
  obtain ⟨x, y, ch', rfl⟩ : ∃ x y c, ch = x :: y :: c := by
    match ch, hch with
    | x :: y :: c, _ => exact ⟨x, y, c, rfl⟩
  obtain ⟨d, t', rfl⟩ := List.exists_cons_of_ne_nil ht
  have e' : u ++ d :: t' = u0 ++ x :: y :: (ch' ++ t0) := by rw [← e, h.eq]; simp
  simp only [List.take_succ_cons, List.take_zero]
  constructor
  · intro hn
    apply Nat.le_of_not_lt
    intro hlt
    refine hn x y ?_ ⟨h.consonants x (by simp), h.consonants y (by simp)⟩
    have e2 : (u ++ [d]) ++ t' = (u0 ++ [x, y]) ++ (ch' ++ t0) := by simpa using e'
    rcases List.append_eq_append_iff.1 e2.symm with ⟨z, hz, -⟩ | ⟨z, hz, -⟩
    · exact ⟨u0, z, by rw [hz]; simp⟩
    · have := congrArg List.length hz
      simp at this
      have : z = [] := List.eq_nil_of_length_eq_zero (by omega)
      subst this
      exact ⟨u0, [], by simpa using hz.symm⟩
  · intro hle
    have e2 : u ++ d :: t' = (u0 ++ [x]) ++ (y :: (ch' ++ t0)) := by rw [e']; simp
    have e3 : (u ++ [d]) ++ t' = (u0 ++ [x]) ++ (y :: (ch' ++ t0)) := by rw [← e2]; simp
    have hQ : AdjAll (fun a b => ¬ (Consonant a ∧ Consonant b)) (u0 ++ [x]) :=
      adjAll_append.2 ⟨h.first, adjAll_single, fun a b ha _ hab => h.before a ha hab.1⟩
    intro a b ⟨p, q, hpq⟩
    refine hQ a b ?_
    rcases List.append_eq_append_iff.1 e3 with ⟨z, hz, -⟩ | ⟨z, hz, -⟩
    · exact ⟨p, q ++ z, by rw [hz, hpq]; simp⟩
    · have := congrArg List.length hz
      simp at this
      have : z = [] := List.eq_nil_of_length_eq_zero (by omega)
      subst this
      exact ⟨p, q, by rw [← hpq, hz]; simp⟩

theorem isBrivlaR_program {s : Settings} {v : Str} : isBrivlaR (program .linked) s v = isBrivla .linked s v := by
  unfold isBrivlaR isBrivla
  rw [program_analyse]

theorem glided_ne {s : Str} (h : Glided s) : s ≠ [] := by
  obtain ⟨g, n, -, -, rfl⟩ := h
  simp

theorem nucleus_vowels {s : Str} (h : Nucleus s) : ∀ c ∈ s, Vowel c := by
  have : ∀ s ∈ START_VOWEL_CLUSTERS, ∀ c ∈ s, isVowel c = true := by decide +kernel
  intro c hc
  exact (isVowel_iff c).1 (this s (mem_start.2 h) c hc)

theorem glided_vowels {s : Str} (h : Glided s) : ∀ c ∈ s, Vowel c := by
  obtain ⟨g, n, hg, hn, rfl⟩ := h
  intro c hc
  rcases List.mem_cons.1 hc with rfl | hc
  · rcases hg with rfl | rfl <;> decide
  · exact nucleus_vowels hn c hc

theorem syllables_length {b : Spec.Before} {w : Str} {n : Nat} (h : Syllables b w n) :
    n + (w.filter (fun c => Consonant c)).length ≤ w.length := by
  induction h with
  | nil => simp
  | @letter b c w n hc _ ih =>
    rw [List.filter_cons]
    split <;> simp <;> omega
  | @nucleus b s w n _ hs _ ih =>
    have h1 : s.filter (fun c => Consonant c) = [] := by
      rw [List.filter_eq_nil_iff]
      intro c hc
      simpa using vowel_not_consonant (nucleus_vowels hs c hc)
    have := List.length_pos_iff.2 (nucleus_ne hs)
    rw [List.filter_append, h1]
    simp
    omega
  | @glided b s w n _ hs _ ih =>
    have h1 : s.filter (fun c => Consonant c) = [] := by
      rw [List.filter_eq_nil_iff]
      intro c hc
      simpa using vowel_not_consonant (glided_vowels hs c hc)
    have := List.length_pos_iff.2 (glided_ne hs)
    rw [List.filter_append, h1]
    simp
    omega

/-- The first cluster has no more consonants before it than any other. -/
theorem few_first {v : Str} (h : ∃ u ch t, Run Consonant v u ch t ∧ 2 ≤ ch.length ∧ (u.filter (fun c => Consonant c)).length ≤ 1)
    {u ch t : Str} (hr : Run Consonant v u ch t) (ha : ∀ a b, Adjacent u a b → ¬ (Consonant a ∧ Consonant b)) :
    (u.filter (fun c => Consonant c)).length ≤ 1 := by
  obtain ⟨u', ch', t', hr', hl', hf⟩ := h
  refine Nat.le_trans ?_ hf
  have e : u ++ (ch ++ t) = u' ++ (ch' ++ t') := by rw [← List.append_assoc, ← List.append_assoc, ← hr.eq, ← hr'.eq]
  rcases List.append_eq_append_iff.1 e with ⟨z, hz, -⟩ | ⟨z, hz, hz2⟩
  · rw [hz]; simp
  · cases z with
    | nil => rw [hz]; simp
    | cons a z =>
      exfalso
      obtain ⟨x, y, c, rfl⟩ : ∃ x y c, ch' = x :: y :: c := by
        match ch', hl' with
        | x :: y :: c, _ => exact ⟨x, y, c, rfl⟩
      have hx := hr'.all x (by simp)
      have hy := hr'.all y (by simp)
      simp only [List.cons_append, List.cons.injEq] at hz2
      obtain ⟨rfl, hz2⟩ := hz2
      cases z with
      | nil => exact hr.before x (by rw [hz]; simp) hx
      | cons b z =>
        simp only [List.cons_append, List.cons.injEq] at hz2
        obtain ⟨rfl, -⟩ := hz2
        exact ha x y ⟨u', z, by rw [hz]⟩ ⟨hx, hy⟩

/-- No tail that `check_zihevla_or_rafsi` looks at is a brivla. -/
def NoBrivlaTail (y : YHyphens) (v : Str) : Prop :=
  ∀ t, CutTail v t → isBrivla .linked { yHyphens := y } t = .ok false

theorem tests_iff {y : YHyphens} {v u ch t : Str} (h : FirstCluster v u ch t) :
    (u.length > 0 → isBrivlaR (program .linked) { yHyphens := y } (v.drop u.length) = .ok false ∧
      fallsApartBefore (program .linked) y v u.length (u.length - 1) 1 = .ok ()) ↔ NoBrivlaTail y v := by
  have hlt : u.length < v.length := by
    have := h.long
    rw [h.eq]; simp; omega
  have hdr : v.drop u.length = ch ++ t := by rw [h.eq, List.append_assoc, List.drop_left]
  have hci : ConsonantInitial (v.drop u.length) := by
    have := h.long
    rw [hdr]
    match ch, this, h.consonants with
    | x :: ch, _, hc => exact hc x (by simp)
  constructor
  · rintro hyp s ⟨x, hx, hne, hs, ha⟩
    have hsne : s ≠ [] := by
      rintro rfl
      rcases hs with h | h <;> simp [ConsonantInitial, Onglide] at h
    have hle := (tail_iff h hx hsne).1 ha
    have hxp : 0 < x.length := List.length_pos_iff.2 hne
    obtain ⟨h1, h2⟩ := hyp (by omega)
    have hsd : v.drop x.length = s := by rw [hx, List.drop_left]
    rw [← isBrivlaR_program]
    rcases Nat.eq_or_lt_of_le hle with he | hlt2
    · rw [← hsd, he]; exact h1
    · have := (fallsApart_iff hlt _ _ (by omega)).1 h2 (u.length - x.length) (by omega) (by omega)
      rw [show u.length - (u.length - x.length) = x.length by omega, hsd] at this
      exact this hs
  · intro hyp hu
    have key : ∀ j, 0 < j → j ≤ u.length → ConsonantInitial (v.drop j) ∨ Onglide (v.drop j) →
        isBrivlaR (program .linked) { yHyphens := y } (v.drop j) = .ok false := by
      intro j hj hju hs
      rw [isBrivlaR_program]
      have hjl : (v.take j).length = j := by rw [List.length_take]; omega
      refine hyp _ ⟨v.take j, (List.take_append_drop j v).symm, ?_, hs, ?_⟩
      · intro e; rw [e] at hjl; simp at hjl; omega
      · refine (tail_iff h (List.take_append_drop j v).symm ?_).2 (by omega)
        intro e
        have := congrArg List.length e
        simp at this
        omega
    refine ⟨key _ hu (Nat.le_refl _) (.inl hci), (fallsApart_iff hlt _ _ (by omega)).2 fun m h1 h2 h3 => key _ (by omega) (by omega) h3⟩

/-- "to" before the word is not a lujvo. -/
def NotSlinkuhi (y : YHyphens) (mz : Bool) (v : Str) : Prop :=
  ConsonantInitial v → ∀ qs, LujvoPieces { yHyphens := y, allowMz := mz } qs → qs.flatten ≠ s%"to" ++ v

theorem slinkuhi_iff {y : YHyphens} {mz : Bool} {v : Str} (hne : ∃ c, v.getLast? = some c ∧ Vowel c) (hy : 'y' ∉ v)
    (h0 : ∃ c, v.head? = some c ∧ (Vowel c ∨ Consonant c)) (hlen : v.length < 10 ^ 95) :
    (program .linked).slinkuhi y mz v = .ok false ↔ NotSlinkuhi y mz v := by
  rw [slinkuhi_program]
  obtain ⟨c, hc, hcc⟩ := h0
  cases v with
  | nil => cases hc
  | cons c v =>
    cases hc
    unfold isSlinkuhi NotSlinkuhi
    rw [show idx (c :: v) 0 = .ok c from rfl, ok_bind]
    by_cases hv : isVowel c = true
    · rw [if_pos hv]
      have : ¬ ConsonantInitial (c :: v) := vowel_not_consonant ((isVowel_iff c).1 hv)
      simp [this]
    · rw [if_neg hv]
      have hcons : Consonant c := hcc.resolve_left fun h => hv ((isVowel_iff c).2 h)
      have hl : ∃ d, (s%"to" ++ c :: v).getLast? = some d ∧ Vowel d := by
        obtain ⟨d, hd, hd2⟩ := hne
        exact ⟨d, by rw [List.getLast?_append, hd]; rfl, hd2⟩
      have hlen' : (s%"to" ++ c :: v).length < 10 ^ 96 := by
        rw [List.length_append]
        rw [show (s%"to").length = 2 from rfl]
        have : (10:Nat) ^ 96 = 10 * 10 ^ 95 := by rw [Nat.pow_succ, Nat.mul_comm]
        omega
      have key := jvokaha_lujvo (s := { yHyphens := y, allowMz := mz }) hl hlen'
      have hE := jvokaha_fails (y := y) (co := .cluster) (gl := false) (mz := mz) hl (by
        intro h
        rcases List.mem_append.1 h with h | h
        · revert h; decide
        · exact hy h)
      dsimp only at key
      cases hk : jvokaha (program .linked) y .cluster false mz (s%"to" ++ c :: v) with
      | ok ps =>
        obtain ⟨qs, hq, hq2⟩ := key.1 ⟨ps, hk⟩
        simp only [succeeds]
        constructor
        · intro h; cases h
        · intro h; exact absurd hq2 (h hcons qs hq)
      | error e =>
        have := hE e hk
        have hs : succeeds (.error e : Except Err (List Str)) = .ok false := by
          simp at this
          rcases this with rfl | rfl <;> rfl
        simp only [hs, true_iff]
        intro _ qs hq hq2
        obtain ⟨ps, hps⟩ := key.2 ⟨qs, hq, hq2⟩
        rw [hk] at hps
        cases hps

theorem sounds_first {mz : Bool} {v : Str} (h : Sounds mz v) (hne : v ≠ []) : ∃ c, v.head? = some c ∧ (Vowel c ∨ Consonant c) := by
  cases v with
  | nil => exact absurd rfl hne
  | cons c v =>
    refine ⟨c, rfl, ?_⟩
    rcases h.letters c (by simp) with h1 | h1 | rfl
    · exact .inl h1
    · exact .inr h1
    · obtain ⟨⟨a, ha, -⟩, -⟩ := h.apostrophe [] v rfl
      cases ha

theorem sounds_no_y {mz : Bool} {v : Str} (h : Sounds mz v) : 'y' ∉ v := by
  intro hy
  rcases h.letters _ hy with h1 | h1 | h1 <;> revert h1 <;> decide

/-- The zi'evla accepted by `check_zihevla_or_rafsi`. -/
theorem check_iff {y : YHyphens} {ex mz : Bool} {v : Str} (hv : ∃ c, v.getLast? = some c ∧ Vowel c) (hlen : v.length < 10 ^ 95) :
    (∃ r, checkZihevlaOrRafsi (program .linked) true y ex mz v = .ok r) ↔
      ZihevlaForm mz v ∧ (∀ n, Syllables .nothing v n → 2 < n → NoBrivlaTail y v) ∧ NotSlinkuhi y mz v := by
  have hne : v ≠ [] := by
    rintro rfl
    obtain ⟨c, hc, -⟩ := hv
    cases hc
  constructor
  · rintro ⟨r, h⟩
    unfold checkZihevlaOrRafsi at h
    obtain ⟨-, h⟩ := ite_error_ok h
    obtain ⟨st, hst, h⟩ := bind_ok h
    obtain ⟨hsy, h⟩ := ite_error_ok h
    have hS := zihScan_sounds hst
    obtain ⟨n, hs, hn⟩ := zihScan_syllables (pre := []) hst rfl rfl
    obtain ⟨-, -, c3⟩ := zihScan_cluster (pre := []) hst rfl rfl rfl
      (by rintro - a b ⟨p, q, h⟩; simp at h) (by simp) (by intro h; exact absurd rfl h)
    have hn2 : 2 ≤ n := by
      simp at hsy hn
      omega
    obtain ⟨⟨⟩, ht, h⟩ := bind_ok h
    cases hcp : st.clusterPos with
    | none => rw [hcp] at h; simp at h
    | some p =>
      obtain ⟨u, ch, t, hF, hp⟩ := c3 (by rw [hcp]; simp)
      rw [hcp] at h ht hp
      cases hp
      have hform : ZihevlaForm mz v :=
        ⟨hS, hv, ⟨u, ch, t, ⟨hF.eq, by intro e; have := hF.long; rw [e] at this; simp at this, hF.consonants, hF.before, hF.after⟩, hF.long, hF.few⟩,
          ⟨n, hs, hn2⟩⟩
      refine ⟨hform, ?_, ?_⟩
      · intro n' hs' h2
        obtain rfl := syllables_unique hs hs'
        rw [← tests_iff hF]
        intro hu
        dsimp only at ht
        rw [if_pos ⟨by rw [hn]; simpa using h2, hu⟩] at ht
        obtain ⟨t, ht1, ht⟩ := bind_ok ht
        cases t with
        | true => simp at ht
        | false => exact ⟨ht1, by simpa using ht⟩
      · obtain ⟨c, hc, hcc⟩ := sounds_first hS hne
        have hsl := slinkuhi_iff (y := y) (mz := mz) hv (sounds_no_y hS) ⟨c, hc, hcc⟩ hlen
        intro hci
        cases v with
        | nil => exact absurd rfl hne
        | cons d v =>
          cases hc
          have hnv : isVowel c = false := by
            cases hb : isVowel c with
            | false => rfl
            | true => exact absurd hci (vowel_not_consonant ((isVowel_iff c).1 hb))
          dsimp only at h
          rw [show idx (c :: v) 0 = .ok c from rfl, ok_bind] at h
          simp only [hnv, Bool.false_eq_true, if_false, ok_bind, Bool.not_false, if_true] at h
          obtain ⟨t, ht1, h⟩ := bind_ok h
          cases t with
          | true => simp at h
          | false => exact hsl.1 ht1 hci
  · rintro ⟨hform, htail, hslk⟩
    have hS := hform.sounds
    obtain ⟨u0, ch0, t0, hr0, hl0, hf0⟩ := hform.cluster
    obtain ⟨n, hs, hn2⟩ := hform.syllables
    have hcons : 2 ≤ (v.filter (fun c => Consonant c)).length := by
      rw [hr0.eq, List.filter_append, List.filter_append, filter_cons (w := ch0) fun c hc => (isConsonant_iff c).2 (hr0.all c hc)]
      simp; omega
    have hlen4 := syllables_length hs
    have hadj : ∃ a b, Adjacent v a b ∧ Consonant a ∧ Consonant b := by
      match ch0, hl0, hr0 with
      | a :: b :: c, _, hr0 => exact ⟨a, b, ⟨u0, c ++ t0, by rw [hr0.eq]; simp⟩, hr0.all a (by simp), hr0.all b (by simp)⟩
    obtain ⟨st, hst⟩ := zihScan_of hS (.inl hadj) (fun u ch t hr _ ha => few_first hform.cluster hr ha) (fuel := v.length + 1) (rest := v) (pre := []) (st := {})
      (by omega) rfl rfl rfl (by rintro - a b ⟨p, q, h⟩; simp at h) (by simp) (by simp)
    obtain ⟨n', hs', hn'⟩ := zihScan_syllables (pre := []) hst rfl rfl
    obtain rfl := syllables_unique hs hs'
    obtain ⟨-, c2, c3⟩ := zihScan_cluster (pre := []) hst rfl rfl rfl
      (by rintro - a b ⟨p, q, h⟩; simp at h) (by simp) (by intro h; exact absurd rfl h)
    have hnone : st.clusterPos ≠ none := by
      intro h
      obtain ⟨a, b, h1, h2⟩ := hadj
      exact c2 h a b h1 h2
    obtain ⟨u, ch, t, hF, hp⟩ := c3 hnone
    obtain ⟨c, hc, hcc⟩ := sounds_first hS hne
    have hsl := (slinkuhi_iff (y := y) (mz := mz) hv (sounds_no_y hS) ⟨c, hc, hcc⟩ hlen).2 hslk
    refine ⟨.zihevla, ?_⟩
    unfold checkZihevlaOrRafsi
    simp only [Nat.zero_add] at hn'
    rw [if_neg (by rintro ⟨-, h⟩; omega), hst, ok_bind, if_neg (by rw [hn']; rintro ⟨h, -⟩; omega), hp]
    dsimp only
    have htest : (if st.numSyllables > 2 ∧ u.length > 0 then do
        if ← isBrivlaR (program .linked) { yHyphens := y } (v.drop u.length) then .error .notZihevla
        else fallsApartBefore (program .linked) y v u.length (u.length - 1) 1
      else Except.ok ()) = .ok () := by
      split
      · rename_i h2
        obtain ⟨h3, h4⟩ := (tests_iff hF).2 (htail n hs (by omega)) h2.2
        rw [h3, ok_bind]
        exact h4
      · rfl
    rw [htest, ok_bind]
    match v, hc, hsl, hlen4 with
    | c :: d :: v, hc, hsl, _ =>
      cases hc
      rw [show idx (c :: d :: v) 0 = .ok c from rfl, ok_bind, show idx (c :: d :: v) 1 = .ok d from rfl, hsl]
      simp only [ok_bind, Bool.false_eq_true, if_false]
      cases isVowel c <;> cases isConsonant d <;> rfl
    | [_], _, _, h => simp at h; omega

theorem reading_short (w : Str) : (reading w).length ≤ 2 * w.length := by
  have hchar : ∀ c : Char, (readChar c).length ≤ 2 := by
    intro c
    unfold readChar
    repeat' split
    all_goals simp
  have key : ∀ v : Str, (v.flatMap readChar).length ≤ 2 * v.length := by
    intro v
    induction v with
    | nil => simp
    | cons a v ih =>
      have := hchar a
      simp only [List.flatMap_cons, List.length_append, List.length_cons]
      omega
  unfold reading
  split
  · rename_i cs
    have := key cs
    simp only [List.length_cons]
    omega
  · exact key _

/-- The words that are zi'evla. -/
theorem zihevla_iff {s : Settings} {w : Str} {ps : List Str} (hlen : (reading w).length < 10 ^ 95) :
    analyseBrivla .linked s w = .ok (.zihevla, ps) ↔
      ps = [reading w] ∧ ZihevlaForm s.allowMz (reading w) ∧
      ¬ Gismu s.allowMz (reading w) ∧ (∀ qs, LujvoPieces s qs → qs.flatten ≠ reading w) ∧
      (∀ n, Syllables .nothing (reading w) n → 2 < n → NoBrivlaTail s.yHyphens (reading w)) ∧
      NotSlinkuhi s.yHyphens s.allowMz (reading w) := by
  have hlen6 : (reading w).length < 10 ^ 96 := Nat.lt_of_lt_of_le hlen (Nat.pow_le_pow_right (by decide) (by decide))
  rw [analyseBrivla_program]
  constructor
  · intro h
    obtain ⟨n, hn, h⟩ := analyseR_ok h
    have hn := (normalise_ok hn).2
    subst hn
    generalize ht : BType.zihevla = t at h
    cases h with
    | gismu => cases ht
    | kaha => split at ht <;> cases ht
    | parts => split at ht <;> cases ht
    | @zihevla l e sh hl hv hg hk he hy hz =>
      have hlast : ∃ c, (reading w).getLast? = some c ∧ Vowel c := ⟨l, hl, (isVowel_iff l).1 hv⟩
      obtain ⟨h1, h2, h3⟩ := (check_iff hlast hlen).1 ⟨sh, hz⟩
      refine ⟨rfl, h1, ?_, ?_, h2, h3⟩
      · intro h
        rw [isGismu_iff.2 h] at hg
        cases hg
      · intro qs hq e
        obtain ⟨ps, hps⟩ := (jvokaha_lujvo hlast hlen6).2 ⟨qs, hq, e⟩
        rw [hk] at hps
        cases hps
  · rintro ⟨rfl, hform, hg, hlj, htail, hslk⟩
    obtain ⟨l, hl, hv⟩ := hform.vowel
    have hlv := (isVowel_iff l).2 hv
    have hlc := not_consonant_of_vowel hlv
    have hne : reading w ≠ [] := by intro h; rw [h] at hl; cases hl
    have hwne : w ≠ [] := by rintro rfl; exact hne rfl
    obtain ⟨c, hc, hcc⟩ := sounds_first hform.sounds hne
    have hy := sounds_no_y hform.sounds
    obtain ⟨r, hr⟩ := (check_iff (y := s.yHyphens) (ex := s.expRafsi) hform.vowel hlen).2 ⟨hform, htail, hslk⟩
    have hg : isGismu s.allowMz (reading w) = false := by
      cases h : isGismu s.allowMz (reading w) with
      | false => rfl
      | true => exact absurd (isGismu_iff.1 h) hg
    have hcv : (isVowel c || isConsonant c) = true := by
      rw [Bool.or_eq_true, isVowel_iff, isConsonant_iff]
      exact hcc
    have hrest : analyseRest (program .linked) s false c (reading w) = .ok (.zihevla, [reading w]) := by
      unfold analyseRest
      rw [splitOn_of_not_mem hy]
      simp [hcv, hr]
    unfold analyseR
    rw [normalise_eq hwne, ok_bind]
    unfold analyseNorm
    simp only [hc, hl, hlv, hlc, hg, Bool.not_true, Bool.and_false, Bool.false_eq_true, if_false, Bool.false_and, Bool.not_false]
    cases hk : jvokaha (program .linked) s.yHyphens s.consonants s.glides s.allowMz (reading w) with
    | ok qs =>
      obtain ⟨ps, hps, e⟩ := (jvokaha_lujvo hform.vowel hlen6).1 ⟨qs, hk⟩
      exact absurd e (hlj ps hps)
    | error e =>
      have := jvokaha_fails hform.vowel hy e hk
      simp at this
      rcases this with rfl | rfl <;> exact hrest

end Jvotci
