import Verif.Lemmas.ZihIff

/-!
# Helper lemmas: how deep the recursion goes
-/

namespace Jvotci

open Spec

/-- tools.py:188-194. -/
def fallsApart (R : Rec) (y : YHyphens) (v : Str) (p : Nat) : Except Err Unit := do
  if ← isBrivlaR R { yHyphens := y } (v.drop p) then .error .notZihevla
  else fallsApartBefore R y v p (p - 1) 1

/-- A place where a word may begin. -/
def StartAt (v : Str) (q : Nat) : Prop := ConsonantInitial (v.drop q) ∨ Onglide (v.drop q)

/-- Not a brivla. -/
def NB (b : Build) (y : YHyphens) (v : Str) : Prop := isBrivlaR (program b) { yHyphens := y } v = .ok false

/-- `n` levels suffice for `v`. -/
def Settles (b : Build) (y : YHyphens) (n : Nat) (v : Str) : Prop :=
  Errs (analyseErrs b) ((recN b n).analyse { yHyphens := y } v)

theorem isBrivlaErrs_sub (b : Build) : ∀ e ∈ [Err.index, .decomposition] ++ nameErrs b, e ∈ zihevlaErrs b := by
  intro e he
  simp only [zihevlaErrs, List.mem_append, List.mem_cons] at he ⊢
  rcases he with (h | h | h) | h <;> simp_all

theorem nb_of {b : Build} {y : YHyphens} {n : Nat} {v : Str} (h : isBrivlaR (recN b n) { yHyphens := y } v = .ok false) : NB b y v := by
  rcases rel_isBrivlaR (relRec_program b n) { yHyphens := y } v with h' | h'
  · rw [h] at h'; cases h'
  · rw [NB, ← h', h]

theorem settles_mono {b : Build} {y : YHyphens} {n m : Nat} {v : Str} (h : Settles b y n v) (hnm : n ≤ m) : Settles b y m v := by
  rcases (relRec_fuel b n m hnm).analyse { yHyphens := y } v with h' | h'
  · exact absurd (h _ h') (analyseErrs_no_fuel b)
  · unfold Settles; rw [← h']; exact h

theorem errs_fallsBefore {b : Build} {n : Nat} {y : YHyphens} {v : Str} {p : Nat}
    (h : ∀ q, 0 < q → q < p → StartAt v q → (∀ q', q < q' → q' < p → StartAt v q' → NB b y (v.drop q')) → Settles b y n (v.drop q)) :
    ∀ k i, 0 < i → i + k ≤ p → (∀ q', p - i < q' → q' < p → StartAt v q' → NB b y (v.drop q')) →
    Errs (zihevlaErrs b) (fallsApartBefore (recN b n) y v p k i) := by
  intro k
  induction k with
  | zero => intro i _ _ _; exact .ok
  | succ k ih =>
    intro i hi0 hi hj
    unfold fallsApartBefore
    refine .bind (errs_idx (by simp [zihevlaErrs]) _ _) fun c hc => ?_
    have hc := idx_ok hc
    have hd : v.drop (p - i) = c :: v.drop (p - i + 1) := by
      obtain ⟨hlt, e⟩ := List.getElem?_eq_some_iff.1 hc
      rw [List.drop_eq_getElem_cons hlt, e]
    have hst : (isConsonant c || isGlide (v.drop (p - i))) = true ↔ StartAt v (p - i) := by
      unfold StartAt
      rw [Bool.or_eq_true, isGlide_iff, isConsonant_iff, hd]
      rfl
    refine .ite (fun hs => ?_) fun hs => ?_
    · have hf := h (p - i) (by omega) (by omega) (hst.1 hs) hj
      have := errs_isBrivlaR (R := recN b n) (s := { yHyphens := y }) (v := v.drop (p - i)) (by rw [recN_build]; exact hf)
      rw [recN_build] at this
      refine .bind (this.mono (isBrivlaErrs_sub b)) fun r hr => .ite (fun _ => .err (by simp [zihevlaErrs])) fun hrf => ?_
      have hnb : NB b y (v.drop (p - i)) := nb_of (n := n) (by rw [hr]; simpa using hrf)
      refine ih (i + 1) (by omega) (by omega) fun q' h1 h2 h3 => ?_
      by_cases he : q' = p - i
      · rw [he]; exact hnb
      · exact hj q' (by omega) h2 h3
    · refine ih (i + 1) (by omega) (by omega) fun q' h1 h2 h3 => ?_
      by_cases he : q' = p - i
      · rw [he] at h3; exact absurd (hst.2 h3) hs
      · exact hj q' (by omega) h2 h3

theorem errs_fallsApart {b : Build} {n : Nat} {y : YHyphens} {v : Str} {p : Nat} (h0 : Settles b y n (v.drop p))
    (h : NB b y (v.drop p) → ∀ q, 0 < q → q < p → StartAt v q → (∀ q', q < q' → q' < p → StartAt v q' → NB b y (v.drop q')) →
      Settles b y n (v.drop q)) (hp : 0 < p) : Errs (zihevlaErrs b) (fallsApart (recN b n) y v p) := by
  unfold fallsApart
  have := errs_isBrivlaR (R := recN b n) (s := { yHyphens := y }) (v := v.drop p) (by rw [recN_build]; exact h0)
  rw [recN_build] at this
  refine .bind (this.mono (isBrivlaErrs_sub b)) fun r hr => .ite (fun _ => .err (by simp [zihevlaErrs])) fun hrf => ?_
  have hnb : NB b y (v.drop p) := nb_of (n := n) (by rw [hr]; simpa using hrf)
  exact errs_fallsBefore (h hnb) _ _ (by omega) (by omega) (fun q' h1 h2 => by omega)

theorem errs_check_of {R : Rec} {rz : Bool} {y : YHyphens} {ex mz : Bool} {v : Str}
    (hsl : ∀ y mz v, Errs (slinkuhiErrs R.build) (R.slinkuhi y mz v))
    (hx : ∀ st p, zihScan mz v (v.length + 1) v {} = .ok st → st.clusterPos = some p → 2 < st.numSyllables → 0 < p →
      Errs (zihevlaErrs R.build) (fallsApart R y v p)) : Errs (zihevlaErrs R.build) (checkZihevlaOrRafsi R rz y ex mz v) := by
  have hz : .notZihevla ∈ zihevlaErrs R.build := by simp [zihevlaErrs]
  have hi : .index ∈ zihevlaErrs R.build := by simp [zihevlaErrs]
  have hsub2 : ∀ e ∈ slinkuhiErrs R.build, e ∈ zihevlaErrs R.build := by
    intro e he
    simp only [zihevlaErrs, slinkuhiErrs, List.mem_append, List.mem_cons] at he ⊢
    rcases he with (h | h | h) | h <;> simp_all
  unfold checkZihevlaOrRafsi
  refine .ite (fun _ => .err hz) fun _ => .bind ((errs_zihScan (by omega)).mono (by simp [zihevlaErrs])) fun st hst =>
    .ite (fun _ => .err hz) fun _ => .bind ?_ fun _ _ => ?_
  · split
    · rename_i p hp
      exact .ite (fun h1 => hx st p hst hp h1.1 h1.2) fun _ => .ok
    · exact .ok
  · split
    · refine .ite (fun _ => .err hz) fun _ => .bind (errs_idx hi _ _) fun c _ => .ite (fun _ => .err hz) fun _ =>
        .ite (fun _ => .err hz) fun _ => .ite (fun _ => .err hz) fun _ => .ok
    · refine .bind (errs_idx hi _ _) fun c _ => .bind (.ite (fun _ => .bind (errs_idx hi _ _) fun _ _ => .ok) fun _ => .ok)
        fun sk _ => .ite (fun _ => .bind ((hsl _ _ _).mono hsub2) fun _ _ => .ite (fun _ => .err hz) fun _ => .ok)
        fun _ => .ok

/-- A word without y. -/
theorem errs_analyse_no_y {R : Rec} {s : Settings} {v : Str} (hsl : ∀ y mz v, Errs (slinkuhiErrs R.build) (R.slinkuhi y mz v))
    (hy : 'y' ∉ reading v)
    (hc : (∃ c, (reading v).getLast? = some c ∧ Vowel c) →
      Errs (zihevlaErrs R.build) (checkZihevlaOrRafsi R true s.yHyphens s.expRafsi s.allowMz (reading v))) :
    Errs (analyseErrs R.build) (analyseR R s v) := by
  have h1 : .notBrivla ∈ analyseErrs R.build := by simp [analyseErrs]
  unfold analyseR
  refine .bind ?_ fun m hm => ?_
  · unfold normalise
    split
    · exact .err (by simp [analyseErrs])
    · exact .ok
  obtain ⟨hne, rfl⟩ := normalise_ok hm
  unfold analyseNorm
  split
  · rename_i c0 l hc0 hl
    refine .ite (fun _ => .err h1) fun hcv => .ite (fun _ => .err h1) fun _ => .ite (fun _ => .ok) fun _ => ?_
    have hrest : Errs (analyseErrs R.build) (analyseRest R s (isConsonant l) c0 (reading v)) := by
      unfold analyseRest
      refine .ite (fun _ => .err h1) fun _ => .ite (fun _ => .ite (fun _ => .err h1) fun hcm => ?_) fun hn => ?_
      · have hvl : Vowel l := by
          rw [← isVowel_iff]
          simp only [Bool.not_eq_true] at hcm
          rw [hcm] at hcv
          simpa using hcv
        split
        · exact .ok
        · exact .err h1
        · rename_i e hne he
          have := hc ⟨l, hl, hvl⟩ e he
          refine .err ?_
          simp only [zihevlaErrs, analyseErrs, List.mem_append, List.mem_cons, List.not_mem_nil, or_false] at this ⊢
          rcases this with (h | h | h | h) | h
          · exact absurd h hne
          all_goals simp [h]
      · exact absurd (by rw [splitOn_of_not_mem hy]; rfl) hn
    split
    · exact .ok
    · exact hrest
    · exact hrest
    · exact hrest
    · rename_i e h3 h4 h5 he
      have := errs_jvokaha (R := R) (fun v _ => hsl _ _ _) e he
      refine .err ?_
      simp only [jvokahaErrs, kahaErrs, analyseErrs, List.mem_append, List.mem_cons, List.not_mem_nil, or_false] at this ⊢
      rcases this with (h | h | h | h) | h
      · exact absurd h h3
      · exact absurd h h4
      · simp [h]
      · exact absurd h h5
      · simp [h]
  · exact .err h1

/-! ## Words that may fall apart -/

/-- `check_zihevla_or_rafsi` looks for brivla inside `v`. -/
def Slow (v : Str) : Prop := ∃ st p, zihScan false v (v.length + 1) v {} = .ok st ∧ st.clusterPos = some p ∧ 2 < st.numSyllables ∧ 0 < p ∧
  ∃ c, v.getLast? = some c ∧ Vowel c

theorem recN_sl (b : Build) (n : Nat) : ∀ y mz v, Errs (slinkuhiErrs (recN b (n + 2)).build) ((recN b (n + 2)).slinkuhi y mz v) := by
  intro y mz v
  rw [recN_build]
  exact errs_slinkuhi_recN b n y mz v

theorem lojban_no_y {v : Str} (h : ∀ c ∈ v, Vowel c ∨ Consonant c ∨ c = '\'') : 'y' ∉ reading v := by
  rw [reading_letters h]
  intro hy
  rcases h _ hy with h1 | h1 | h1 <;> revert h1 <;> decide

/-- One more level than for the words looked at inside. -/
theorem settles_step {b : Build} {y : YHyphens} {n : Nat} {v : Str} (hl : ∀ c ∈ v, Vowel c ∨ Consonant c ∨ c = '\'')
    (h : ∀ st p, zihScan false v (v.length + 1) v {} = .ok st → st.clusterPos = some p → 2 < st.numSyllables → 0 < p →
      (∃ c, v.getLast? = some c ∧ Vowel c) → Errs (zihevlaErrs b) (fallsApart (recN b (n + 2)) y v p)) : Settles b y (n + 3) v := by
  unfold Settles
  rw [recN_analyse]
  have := errs_analyse_no_y (R := recN b (n + 2)) (s := { yHyphens := y }) (v := v) (recN_sl b n) (lojban_no_y hl) (by
    rw [reading_letters hl]
    intro hc
    apply errs_check_of (recN_sl b n)
    intro st p h1 h2 h3 h4
    rw [recN_build]
    exact h st p h1 h2 h3 h4 hc)
  rwa [recN_build] at this

theorem settles_quick {b : Build} {y : YHyphens} {v : Str} (hl : ∀ c ∈ v, Vowel c ∨ Consonant c ∨ c = '\'') (h : ¬ Slow v) : Settles b y 3 v :=
  settles_step (n := 0) hl fun st p h1 h2 h3 h4 h5 => absurd ⟨st, p, h1, h2, h3, h4, h5⟩ h

/-- The first two consonants side by side are at `p`. -/
def FirstAt (v : Str) (p : Nat) : Prop :=
  (∃ a b, v[p]? = some a ∧ v[p + 1]? = some b ∧ Consonant a ∧ Consonant b) ∧
  ∀ i, i < p → ∀ a b, v[i]? = some a → v[i + 1]? = some b → ¬ (Consonant a ∧ Consonant b)

theorem firstAt_unique {v : Str} {p q : Nat} (hp : FirstAt v p) (hq : FirstAt v q) : p = q := by
  obtain ⟨⟨a, b, h1, h2, h3, h4⟩, h5⟩ := hp
  obtain ⟨⟨c, d, g1, g2, g3, g4⟩, g5⟩ := hq
  rcases Nat.lt_trichotomy p q with h | h | h
  · exact absurd ⟨h3, h4⟩ (g5 p h a b h1 h2)
  · exact h
  · exact absurd ⟨g3, g4⟩ (h5 q h c d g1 g2)

theorem firstAt_drop {v : Str} {p q : Nat} (hp : FirstAt v p) (hq : q ≤ p) : FirstAt (v.drop q) (p - q) := by
  obtain ⟨⟨a, b, h1, h2, h3, h4⟩, h5⟩ := hp
  refine ⟨⟨a, b, ?_, ?_, h3, h4⟩, fun i hi a b ha hb => ?_⟩
  · rw [List.getElem?_drop, show q + (p - q) = p by omega, h1]
  · rw [List.getElem?_drop, show q + (p - q + 1) = p + 1 by omega, h2]
  · rw [List.getElem?_drop] at ha hb
    exact h5 (q + i) (by omega) a b ha (by rw [← hb]; congr 1)

theorem firstAt_scan {mz : Bool} {v : Str} {st : ZState} {p : Nat} (h : zihScan mz v (v.length + 1) v {} = .ok st)
    (hp : st.clusterPos = some p) : FirstAt v p ∧ ((v.take p).filter (fun c => Consonant c)).length ≤ 1 := by
  obtain ⟨-, -, c3⟩ := zihScan_cluster (pre := []) h rfl rfl rfl
    (fun _ a b hab => by obtain ⟨x, z, e⟩ := hab; simp at e) (by simp) (fun hh => absurd rfl hh)
  obtain ⟨u, ch, t, hf, e⟩ := c3 (by rw [hp]; simp)
  rw [hp] at e
  cases e
  obtain ⟨rfl, h2, h3, h4, h5, h6, h7, h8⟩ := hf
  refine ⟨⟨?_, ?_⟩, by simpa using h7⟩
  · match ch, h3 with
    | a :: b :: ch, _ =>
      refine ⟨a, b, by simp, ?_, h2 a (by simp), h2 b (by simp)⟩
      rw [List.append_assoc, List.getElem?_append_right (by omega)]
      simp
  · intro i hi a b ha hb hab
    rw [List.append_assoc, List.getElem?_append_left hi] at ha
    by_cases hi' : i + 1 < u.length
    · rw [List.append_assoc, List.getElem?_append_left hi'] at hb
      refine h6 a b ⟨u.take i, u.drop (i + 2), ?_⟩ hab
      obtain ⟨k1, e1⟩ := List.getElem?_eq_some_iff.1 ha
      obtain ⟨k2, e2⟩ := List.getElem?_eq_some_iff.1 hb
      have : u.drop i = a :: b :: u.drop (i + 2) := by
        rw [List.drop_eq_getElem_cons k1, e1, List.drop_eq_getElem_cons k2, e2]
      conv => lhs; rw [← List.take_append_drop i u, this]
    · have hl : u.getLast? = some a := by rw [List.getLast?_eq_getElem?, ← ha]; congr 1; omega
      exact h4 a hl hab.1

theorem tarmi_vowel {a : Char} {T : Str} (ha : Vowel a) : rafsiTarmi (a :: T) = .other := by
  have h1 := (isVowel_iff a).2 ha
  have h2 : isConsonant a = false := isConsonant_false.2 (fun h => vowel_not_consonant ha h)
  unfold rafsiTarmi
  split <;> simp_all
  rintro rfl
  cases h1

theorem jvokaha2_vowel {y : YHyphens} {mz : Bool} {a : Char} {T : Str} (ha : Vowel a) : jvokaha2 y mz (a :: T) = .error .decomposition := by
  have h : ∀ k, rafsiTarmi (slice (a :: T) 0 (k + 1)) = .other := fun k => by
    rw [show slice (a :: T) 0 (k + 1) = a :: T.take k by simp [slice], tarmi_vowel ha]
  unfold jvokaha2 jvokaha2Loop
  rw [if_neg (by simp), show takeHyphen y (a :: T) [] = .ok none from rfl, ok_bind]
  unfold takeRafsi
  simp [h 2, h 3, tarmi_vowel ha]
  rfl

/-- A word that begins with an on-glide and does not fall apart is a zi'evla. -/
theorem glide_brivla {b : Build} {y : YHyphens} {T : Str} {st : ZState} {p : Nat} (hst : zihScan false T (T.length + 1) T {} = .ok st)
    (hcp : st.clusterPos = some p) (hsy : 2 < st.numSyllables) (hp : 0 < p) (hv : ∃ c, T.getLast? = some c ∧ Vowel c)
    (hon : Onglide T) (h0 : NB b y (T.drop p)) (h : ∀ q, 0 < q → q < p → StartAt T q → NB b y (T.drop q)) : ¬ NB b y T := by
  intro hnb
  have hl := (zihScan_sounds hst).letters
  obtain ⟨⟨⟨ca, cb, f1, f2, f3, f4⟩, f5⟩, -⟩ := firstAt_scan hst hcp
  have hpl : p + 1 < T.length := (List.getElem?_eq_some_iff.1 f2).1
  obtain ⟨l, hl1, hl2⟩ := hv
  match T, hon with
  | a :: a' :: T, ⟨ha, ha'⟩ =>
  have hav : Vowel a := by rcases ha with rfl | rfl <;> decide
  have hlen : 4 ≤ (a :: a' :: T).length := by
    have : p + 1 ≠ (a :: a' :: T).length - 1 := by
      intro e
      rw [List.getLast?_eq_getElem?, ← e, f2] at hl1
      cases hl1
      exact vowel_not_consonant hl2 f4
    have : p ≠ 1 := by
      rintro rfl
      simp at f1
      subst f1
      exact vowel_not_consonant ha' f3
    omega
  have hfa : fallsApart (program b) y (a :: a' :: T) p = .ok () := by
    unfold fallsApart
    rw [show isBrivlaR (program b) { yHyphens := y } _ = .ok false from h0, ok_bind, if_neg (by simp)]
    rw [fallsApart_iff (by omega) _ _ (by omega)]
    intro m h1 h2 h3
    exact h (p - m) (by omega) (by omega) h3
  have hck : checkZihevlaOrRafsi (program b) true y false false (a :: a' :: T) = .ok .zihevla := by
    unfold checkZihevlaOrRafsi
    rw [if_neg (by omega), hst, ok_bind, if_neg (by omega), hcp]
    dsimp only
    rw [if_pos ⟨hsy, hp⟩]
    unfold fallsApart at hfa
    rw [hfa, ok_bind, show idx (a :: a' :: T) 0 = .ok a from rfl, ok_bind, if_pos ((isVowel_iff a).2 hav),
      show idx (a :: a' :: T) 1 = .ok a' from rfl, ok_bind, ok_bind]
    rw [if_pos (by
      rw [isConsonant_false.2 (fun h => vowel_not_consonant ha' h)]; rfl), slinkuhi_program]
    unfold isSlinkuhi
    rw [show idx (a :: a' :: T) 0 = .ok a from rfl, ok_bind, if_pos ((isVowel_iff a).2 hav), ok_bind, if_neg (by simp)]
  unfold NB isBrivlaR at hnb
  rw [program_analyse, analyseBrivla_program] at hnb
  have hlc : isConsonant l = false := isConsonant_false.2 (fun h => vowel_not_consonant hl2 h)
  have hrest : ∀ s : Settings, s = { yHyphens := y } → analyseRest (program b) s false a (a :: a' :: T) = .ok (.zihevla, [a :: a' :: T]) := by
    rintro s rfl
    unfold analyseRest
    have hny := lojban_no_y hl
    rw [reading_letters hl] at hny
    rw [if_neg (by rw [(isVowel_iff a).2 hav]; simp), splitOn_of_not_mem hny]
    simp only [List.length_singleton, if_true]
    rw [if_neg (by simp), hck]
  have hany : analyseR (program b) { yHyphens := y } (a :: a' :: T) ≠ .error .notBrivla := by
    unfold analyseR
    rw [normalise_eq (by simp), ok_bind, reading_letters hl]
    unfold analyseNorm
    rw [hl1]
    simp only [List.head?_cons]
    rw [if_neg (by rw [hlc, (isVowel_iff l).2 hl2]; simp), hlc, if_neg (by simp)]
    split
    · simp
    · split
      · simp
      · rw [hrest _ rfl]; simp
      · rw [hrest _ rfl]; simp
      · rw [hrest _ rfl]; simp
      · rename_i e g1 g2 g3 he
        unfold jvokaha at he
        rw [jvokaha2_vowel hav] at he
        cases he
        exact absurd rfl g1
  have hcm : ∀ t ps, analyseR (program b) { yHyphens := y } (a :: a' :: T) = .ok (t, ps) → t ≠ .cmevla := by
    intro t ps ht
    unfold analyseR at ht
    rw [normalise_eq (by simp), ok_bind, reading_letters hl] at ht
    unfold analyseNorm at ht
    rw [hl1] at ht
    simp only [List.head?_cons] at ht
    rw [if_neg (by rw [hlc, (isVowel_iff l).2 hl2]; simp), hlc, if_neg (by simp)] at ht
    split at ht
    · cases ht; simp
    · split at ht
      · cases ht; simp
      · rw [hrest _ rfl] at ht; cases ht; simp
      · rw [hrest _ rfl] at ht; cases ht; simp
      · rw [hrest _ rfl] at ht; cases ht; simp
      · cases ht
  split at hnb
  · rename_i t ps ht
    have := hcm t ps ht
    simp [this] at hnb
  · rename_i ht
    exact hany ht
  · cases hnb

/-! ## Three kinds of words looked at inside a word -/

theorem getLast_drop {v : Str} {q : Nat} (hq : q < v.length) : (v.drop q).getLast? = v.getLast? := by
  rw [List.getLast?_drop, if_neg (by omega)]

theorem start_drop {v : Str} {q r : Nat} : StartAt (v.drop q) r ↔ StartAt v (q + r) := by
  unfold StartAt
  rw [List.drop_drop]

section inside

variable {b : Build} {y : YHyphens} {v : Str} {p : Nat} (hl : ∀ c ∈ v, Vowel c ∨ Consonant c ∨ c = '\'') (hf : FirstAt v p)

include hl in
theorem drop_letters (q : Nat) : ∀ c ∈ v.drop q, Vowel c ∨ Consonant c ∨ c = '\'' := fun c hc => hl c (List.mem_of_mem_drop hc)

include hl hf in
theorem settles_cluster : Settles b y 3 (v.drop p) := by
  apply settles_quick (drop_letters hl p)
  rintro ⟨st, p', h1, h2, h3, h4, -⟩
  have := firstAt_unique (firstAt_scan h1 h2).1 (firstAt_drop hf (Nat.le_refl p))
  omega

include hl hf in
theorem settles_glide {q : Nat} (hq : q < p) (hon : Onglide (v.drop q)) (h0 : NB b y (v.drop p))
    (h : ∀ q', q < q' → q' < p → StartAt v q' → NB b y (v.drop q')) (hnb : NB b y (v.drop q)) : Settles b y 3 (v.drop q) := by
  apply settles_quick (drop_letters hl q)
  rintro ⟨st, p', h1, h2, h3, h4, h5⟩
  have e := firstAt_unique (firstAt_scan h1 h2).1 (firstAt_drop hf (Nat.le_of_lt hq))
  refine glide_brivla h1 h2 h3 h4 h5 hon ?_ (fun r hr1 hr2 hr3 => ?_) hnb
  · rw [List.drop_drop, e, show q + (p - q) = p by omega]; exact h0
  · rw [List.drop_drop]
    exact h (q + r) (by omega) (by omega) (start_drop.1 hr3)

include hl hf in
/-- One more level than for the words that begin after `q`. -/
theorem settles_inside {q n : Nat} (hq : q < p)
    (h : ∀ q', q < q' → q' < p → StartAt v q' → Settles b y (n + 3) (v.drop q')) : Settles b y (n + 4) (v.drop q) := by
  apply settles_step (n := n + 1) (drop_letters hl q)
  intro st p' h1 h2 h3 h4 h5
  have e := firstAt_unique (firstAt_scan h1 h2).1 (firstAt_drop hf (Nat.le_of_lt hq))
  refine errs_fallsApart ?_ (fun _ r hr1 hr2 hr3 _ => ?_) h4
  · rw [List.drop_drop, e, show q + (p - q) = p by omega]
    exact settles_mono (settles_cluster hl hf) (by omega)
  · rw [List.drop_drop]
    exact h (q + r) (by omega) (by omega) (start_drop.1 hr3)

include hl hf in
theorem settles_consonant {q : Nat} (hq : q < p) (hc : ConsonantInitial (v.drop q)) (hfew : ((v.take p).filter (fun c => Consonant c)).length ≤ 1)
    (h0 : NB b y (v.drop p)) (h : ∀ q', q < q' → q' < p → StartAt v q' → NB b y (v.drop q')) : Settles b y 4 (v.drop q) := by
  apply settles_inside (n := 0) hl hf hq
  intro q' hq1 hq2 hs
  rcases hs with hs | hs
  · exfalso
    have key : ∀ {r : Nat}, r ≤ p → ConsonantInitial (v.drop r) → ∃ c, v[r]? = some c ∧ Consonant c := by
      intro r _ hr
      cases hd : v.drop r with
      | nil => rw [hd] at hr; exact hr.elim
      | cons c t =>
        rw [hd] at hr
        refine ⟨c, ?_, hr⟩
        have := congrArg List.head? hd
        rw [List.head?_drop] at this
        exact this
    obtain ⟨c, hc1, hc2⟩ := key (Nat.le_of_lt hq) hc
    obtain ⟨d, hd1, hd2⟩ := key (Nat.le_of_lt hq2) hs
    have e : v.take p = v.take q ++ c :: ((v.take q').drop (q + 1) ++ d :: (v.take p).drop (q' + 1)) := by
      apply List.ext_getElem?
      intro i
      have hl' : q' < v.length := (List.getElem?_eq_some_iff.1 hd1).1
      simp only [List.getElem?_append, List.getElem?_take, List.getElem?_cons, List.getElem?_drop, List.length_take, List.length_drop]
      grind
    rw [e] at hfew
    simp [hc2, hd2] at hfew
    omega
  · exact settles_glide hl hf hq2 hs h0 (fun r hr1 hr2 hr3 => h r (by omega) hr2 hr3) (h q' hq1 hq2 (.inr hs))

include hl hf in
theorem settles_start {q : Nat} (hq : q < p) (hfew : ((v.take p).filter (fun c => Consonant c)).length ≤ 1)
    (h0 : NB b y (v.drop p)) (h : ∀ q', q < q' → q' < p → StartAt v q' → NB b y (v.drop q')) : Settles b y 5 (v.drop q) := by
  apply settles_inside (n := 1) hl hf hq
  intro q' hq1 hq2 hs'
  have h' : ∀ r, q' < r → r < p → StartAt v r → NB b y (v.drop r) := fun r hr1 hr2 hr3 => h r (by omega) hr2 hr3
  rcases hs' with hs' | hs'
  · exact settles_consonant hl hf hq2 hs' hfew h0 h'
  · exact settles_mono (settles_glide hl hf hq2 hs' h0 h' (h q' hq1 hq2 (.inr hs'))) (by omega)

end inside

theorem errs_check_five (b : Build) (n : Nat) (rz : Bool) (y : YHyphens) (ex mz : Bool) (v : Str) :
    Errs (zihevlaErrs b) (checkZihevlaOrRafsi (recN b (n + 5)) rz y ex mz v) := by
  have := errs_check_of (R := recN b (n + 5)) (rz := rz) (y := y) (ex := ex) (mz := mz) (v := v) (recN_sl b (n + 3)) (by
    intro st p h1 h2 h3 h4
    obtain ⟨hf, hfew⟩ := firstAt_scan h1 h2
    have hl := (zihScan_sounds h1).letters
    rw [recN_build]
    exact errs_fallsApart (settles_mono (settles_cluster hl hf) (by omega)) (fun hnb q _ hq2 _ hj =>
      settles_mono (settles_start hl hf hq2 hfew hnb hj) (by omega)) h4)
  rwa [recN_build] at this

/-- Words without y. -/
theorem errs_analyse_six (b : Build) (n : Nat) (s : Settings) {v : Str} (hy : 'y' ∉ reading v) :
    Errs (analyseErrs b) ((recN b (n + 6)).analyse s v) := by
  rw [recN_analyse]
  have := errs_analyse_no_y (R := recN b (n + 5)) (s := s) (recN_sl b (n + 3)) hy (fun _ => by
    rw [recN_build]; exact errs_check_five b n _ _ _ _ _)
  rwa [recN_build] at this

/-! ## Words with y -/

/-- Enough levels for the parts of a word with y. -/
structure Deep (R : Rec) : Prop where
  slinkuhi : ∀ y mz v, Errs (slinkuhiErrs R.build) (R.slinkuhi y mz v)
  analyse : ∀ s v, 'y' ∉ reading v → Errs (analyseErrs R.build) (R.analyse s v)
  check : ∀ rz y ex mz v, Errs (zihevlaErrs R.build) (checkZihevlaOrRafsi R rz y ex mz v)

theorem deep_recN (b : Build) (n : Nat) : Deep (recN b (n + 6)) := by
  refine ⟨recN_sl b (n + 4), fun s v hy => ?_, fun rz y ex mz v => ?_⟩
  · rw [recN_build]; exact errs_analyse_six b n s hy
  · rw [recN_build]; exact errs_check_five b (n + 1) rz y ex mz v

theorem reading_stable_mem {v : Str} (h : ∀ d ∈ v, readChar d = [d]) {c : Char} (hc : c ∈ reading v) : c ∈ v := by
  unfold reading at hc
  split at hc
  · rw [flatMap_readChar_stable (fun d hd => h d (by simp [hd]))] at hc; simp [hc]
  · rwa [flatMap_readChar_stable h] at hc

theorem joinSep_mem {c : Char} {ps : List Str} {p : Str} (hp : p ∈ ps) {d : Char} (hd : d ∈ p) : d ∈ joinSep c ps := by
  cases ps with
  | nil => cases hp
  | cons q ps =>
    unfold joinSep
    rcases List.mem_cons.1 hp with rfl | hp
    · simp [hd]
    · simp only [List.mem_append, List.mem_flatMap]
      exact .inr ⟨p, hp, by simp [hd]⟩

theorem errs_part_deep {R : Rec} {ctx : ACtx} {i : Nat} {p : Str} {st : AState} (hR : Deep R) (hst : ∀ d ∈ p, readChar d = [d])
    (hy : 'y' ∉ p) : Errs (analyseErrs R.build) (analysePart R ctx i p st) := by
  have h1 : .notBrivla ∈ analyseErrs R.build := by simp [analyseErrs]
  have h2 : .index ∈ analyseErrs R.build := by simp [analyseErrs]
  unfold analysePart
  refine .bind (errs_stripLeadingH _ _ _) fun ⟨part, lead⟩ hs => .ite (fun _ => .ok) fun _ =>
    .bind (errs_idx h2 _ _) fun c0 _ => .bind (errs_partForm _ _ _ _ _) fun f hf => ?_
  obtain ⟨-, hp0, -, -⟩ := stripLeadingH_ok hs
  have hsub : ∀ d ∈ part, d ∈ p := by
    intro d hd; rw [hp0]; split <;> simp [hd]
  obtain ⟨e1, e2, e3, -⟩ := partForm_ok hf
  have hA : ∀ s, Errs (analyseErrs R.build) (R.analyse s f.partA) := by
    intro s
    apply hR.analyse
    intro hd
    have hd := reading_stable_mem (by
      intro d hd
      rw [e3] at hd
      rcases List.mem_append.1 hd with hd | hd
      · exact hst d (hsub d hd)
      · simp at hd; subst hd; decide) hd
    rw [e3] at hd
    rcases List.mem_append.1 hd with hd | hd
    · exact hy (hsub _ hd)
    · revert hd; decide
  refine .bind (.ite (fun _ => errs_tryKaha hA) fun _ => .ok) fun ⟨found, did⟩ _ => ?_
  dsimp only
  refine .ite (fun _ => .ite (fun _ => .err h1) fun _ => .bind (.ite (fun _ => errs_tosmabruTest hR.slinkuhi) fun _ => .ok)
    fun _ _ => .ok) fun _ => .bind ?_ fun sh _ => .bind (.ite (fun _ => .bind
      ((errs_succeeds ((errs_jvokaha2 _ _ _).mono (by intro e he; exact List.mem_append_left _ he))).mono
        (slinkuhiErrs_sub _)) fun _ _ => .ite (fun _ => .err h1) fun _ => .ok) fun _ => .ok) fun _ _ =>
      .bind (errs_idx h2 _ _) fun _ _ => .ok
  split
  · exact .err h1
  · rename_i x hx
    intro e he
    have := hR.check _ _ _ _ _ e he
    simp only [zihevlaErrs, analyseErrs, List.mem_append, List.mem_cons, List.not_mem_nil, or_false] at this ⊢
    rcases this with (h | h | h | h) | h
    · subst h; exact absurd he hx
    all_goals simp [h]

theorem errs_loop_deep {R : Rec} {ctx : ACtx} (hR : Deep R) : ∀ {ps : List Str} {i : Nat} {st : AState},
    (∀ p ∈ ps, (∀ d ∈ p, readChar d = [d]) ∧ 'y' ∉ p) → Errs (analyseErrs R.build) (analyseLoop R ctx i ps st) := by
  intro ps
  induction ps with
  | nil => intro i st _; exact .ok
  | cons p ps ih =>
    intro i st h
    unfold analyseLoop
    exact .bind (errs_part_deep hR (h p (by simp)).1 (h p (by simp)).2) fun _ _ => ih (fun q hq => h q (by simp [hq]))

theorem errs_y_deep {R : Rec} {s : Settings} {c : Bool} {w : Str} (hR : Deep R) (hst : ∀ d ∈ w, readChar d = [d]) :
    Errs (analyseErrs R.build) (analyseY R s c w (splitOn 'y' w)) := by
  have h1 : .notBrivla ∈ analyseErrs R.build := by simp [analyseErrs]
  have h2 : .index ∈ analyseErrs R.build := by simp [analyseErrs]
  unfold analyseY
  exact .bind (errs_loop_deep hR (fun p hp' => ⟨fun d hd => hst d (by rw [← joinSep_splitOn 'y' w]; exact joinSep_mem hp' hd), splitOn_not_mem 'y' w p hp'⟩)) fun st _ =>
    .ite (fun _ => .err h1) fun _ => .bind (errs_idx h2 _ _) fun c0 _ => .bind
      (.ite (fun _ => .bind (errs_idx h2 _ _) fun _ _ => .ok) fun _ => .ok) fun _ _ => .bind
      (.ite (fun _ => (errs_isSlinkuhi (fun t => hR.slinkuhi _ _ _)).mono (slinkuhiErrs_sub _)) fun _ => .ok) fun _ _ =>
      .ite (fun _ => .err h1) fun _ => .ok

theorem errs_norm_deep {R : Rec} {s : Settings} {w : Str} (hR : Deep R) (hst : ∀ d ∈ w, readChar d = [d]) :
    Errs (analyseErrs R.build) (analyseNorm R s w) := by
  have h1 : .notBrivla ∈ analyseErrs R.build := by simp [analyseErrs]
  unfold analyseNorm
  split
  · rename_i c0 l hc0 hl
    refine .ite (fun _ => .err h1) fun hcv => .ite (fun _ => .err h1) fun _ => .ite (fun _ => .ok) fun _ => ?_
    have hrest : Errs (analyseErrs R.build) (analyseRest R s (isConsonant l) c0 w) := by
      unfold analyseRest
      refine .ite (fun _ => .err h1) fun hc => .ite (fun _ => .ite (fun _ => .err h1) fun _ => ?_) fun hn => errs_y_deep hR hst
      split
      · exact .ok
      · exact .err h1
      · rename_i e hne he
        have := hR.check _ _ _ _ _ e he
        refine .err ?_
        simp only [zihevlaErrs, analyseErrs, List.mem_append, List.mem_cons, List.not_mem_nil, or_false] at this ⊢
        rcases this with (h | h | h | h) | h
        · exact absurd h hne
        all_goals simp [h]
    split
    · exact .ok
    · exact hrest
    · exact hrest
    · exact hrest
    · rename_i e h3 h4 h5 he
      have := errs_jvokaha (R := R) (fun v _ => hR.slinkuhi _ _ _) e he
      refine .err ?_
      simp only [jvokahaErrs, kahaErrs, analyseErrs, List.mem_append, List.mem_cons, List.not_mem_nil, or_false] at this ⊢
      rcases this with (h | h | h | h) | h
      · exact absurd h h3
      · exact absurd h h4
      · simp [h]
      · exact absurd h h5
      · simp [h]
  · exact .err h1

/-- Six levels are enough for any word. -/
theorem errs_analyse_deep (b : Build) (n : Nat) (s : Settings) (w : Str) : Errs (analyseErrs b) (analyseR (recN b (n + 6)) s w) := by
  unfold analyseR
  refine .bind ?_ fun m hm => ?_
  · unfold normalise
    split
    · exact .err (by simp [analyseErrs])
    · exact .ok
  obtain ⟨-, rfl⟩ := normalise_ok hm
  have := errs_norm_deep (s := s) (deep_recN b n) (w := reading w) (fun d => reading_chars)
  rwa [recN_build] at this

theorem good_deep (b : Build) (n k : Nat) : Good (recN b (n + 7)) k :=
  ⟨recN_sl b (n + 5), fun s v _ _ => by rw [recN_build, recN_analyse]; exact errs_analyse_deep b n s v⟩

end Jvotci
