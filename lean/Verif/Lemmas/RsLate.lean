import Verif.Lemmas.RsCheck
import Verif.Lemmas.ZihIff

/-!
# Lemmas: two consonants before the first cluster, in the Rust crate

The Python version refuses such words at once, the Rust crate only if what is left after some cmavo is a brivla. It always is, if nothing
else is wrong with the word.
-/

namespace Jvotci

open Spec

theorem adjAll_at {Q : Char → Char → Prop} {w : Str} (h : AdjAll Q w) {i : Nat} {a b : Char} (ha : w[i]? = some a) (hb : w[i + 1]? = some b) :
    Q a b := by
  obtain ⟨k1, rfl⟩ := List.getElem?_eq_some_iff.1 ha
  obtain ⟨k2, rfl⟩ := List.getElem?_eq_some_iff.1 hb
  refine h _ _ ⟨w.take i, w.drop (i + 2), ?_⟩
  conv => lhs; rw [← List.take_append_drop i w, List.drop_eq_getElem_cons k1, List.drop_eq_getElem_cons k2]

theorem rs_zihConsonants_relax {acc : Str → Bool} {mz : Bool} {v ch : Str} {st st' : ZState} (hne : ch ≠ [])
    (hm : mz = true → NoMzCc ch) (h : rsZihConsonants acc mz v ch st = .ok st') :
    zihConsonants mz ch { st with clusterPos := some 0 } = .ok { st' with clusterPos := some 0 } ∧
    (ch.length ≥ 2 → st.clusterPos = none → st.numConsonants > 1 → rsCmavoFall acc v st.pos = false) ∧
    st' = { pos := st.pos + ch.length, numSyllables := st.numSyllables,
            clusterPos := if ch.length ≥ 2 ∧ st.clusterPos = none then some st.pos else st.clusterPos,
            numConsonants := st.numConsonants + ch.length, finalConsonantPos := st.pos } := by
  unfold rsZihConsonants at h
  obtain ⟨h0, h⟩ := rs_ite_ok h
  obtain ⟨h1, h⟩ := rs_ite_ok h
  obtain ⟨h2, h⟩ := rs_ite_ok h
  obtain ⟨h3, h⟩ := rs_ite_ok h
  obtain ⟨h4, h⟩ := rs_ite_ok h
  have hodd : ¬ OddCluster ch := not_odd_of (mz := mz) (by simpa using h2) hm
  rw [rsIsZihevlaInitialCluster_eq hne, (rsIsZihevlaMiddleCluster_iff ch).2 hodd] at h4
  injection h with h
  subst h
  refine ⟨?_, ?_, ?_⟩
  · rw [zihConsonants_of (by intro _ h; cases h) (by
      intro k1 k2
      simp only [Bool.and_eq_true, beq_iff_eq, decide_eq_true_eq, Bool.not_eq_true'] at h1
      cases hi : INITIAL.contains (slice ch 0 2) with
      | true => rfl
      | false => exact absurd ⟨⟨k2, k1⟩, hi⟩ h1) (by simpa using h2) (by simpa using h3) (by
      intro k; dsimp only at k; rw [if_pos k] at h4; simpa using h4) (by
      intro k; dsimp only at k; rw [if_neg k] at h4; simpa using h4)]
    simp
  · intro k1 k2 k3
    simp only [Bool.and_eq_true, decide_eq_true_eq, Option.isNone_iff_eq_none] at h0
    cases hf : rsCmavoFall acc v st.pos with
    | false => rfl
    | true => exact absurd ⟨⟨⟨k1, k2⟩, k3⟩, hf⟩ h0
  · simp

theorem zihVowels_relax {v ch : Str} {st st' : ZState} (h : zihVowels v ch st = .ok st') :
    zihVowels v ch { st with clusterPos := some 0 } = .ok { st' with clusterPos := some 0 } := by
  unfold zihVowels at h ⊢
  cases hs : splitVowelCluster ch with
  | error e => rw [hs] at h; cases e <;> cases h
  | ok syl =>
    rw [hs] at h
    dsimp only at h ⊢
    obtain ⟨-, h⟩ := ite_error_ok h
    obtain ⟨h2, h⟩ := ite_error_ok h
    rw [if_neg (by simp), if_neg h2]
    cases h
    rfl

/-- What is known of the place `p` of the first cluster. -/
def GoodAt (acc : Str → Bool) (v : Str) (p : Nat) : Prop :=
  FirstAt v p ∧ (1 < ((v.take p).filter (fun c => Consonant c)).length → rsCmavoFall acc v p = false)

theorem rs_scan_facts {acc : Str → Bool} {mz : Bool} {v : Str} (hm : mz = true → NoMzCc v) :
    ∀ {fuel : Nat} {rest pre : Str} {st st' : ZState},
    rsZihScan acc mz v fuel rest st = .ok st' → v = pre ++ rest → st.pos = pre.length →
    st.numConsonants = (pre.filter (fun c => Consonant c)).length →
    (st.clusterPos = none → AdjAll NotCc pre) →
    (∀ a b, pre.getLast? = some a → rest.head? = some b → NotCc a b) →
    (∀ p, st.clusterPos = some p → GoodAt acc v p) →
    (∃ st2, zihScan mz v fuel rest { st with clusterPos := some 0 } = .ok st2 ∧ st2.numSyllables = st'.numSyllables) ∧
    (∀ p, st'.clusterPos = some p → GoodAt acc v p) := by
  intro fuel
  induction fuel with
  | zero => intro rest pre st st' h; cases h
  | succ fuel ih =>
    intro rest pre st st' h hv hp hn hnone hadj hgood
    cases rest with
    | nil => cases h; exact ⟨⟨_, rfl, rfl⟩, hgood⟩
    | cons c cs =>
      rw [rs_scan_cons] at h
      unfold zihScan
      split at h
      · rename_i hc
        rw [if_pos hc]
        have hne := takeWhile_ne_nil (w := cs) hc
        have hall := takeWhile_all (p := isConsonant) (w := c :: cs)
        have heq : c :: cs = (c :: cs).takeWhile isConsonant ++ (c :: cs).dropWhile isConsonant :=
          List.takeWhile_append_dropWhile.symm
        have hhead : ∀ d, ((c :: cs).dropWhile isConsonant).head? = some d → isConsonant d = false :=
          fun d hd => dropWhile_head hd
        have hpre : ∀ a, pre.getLast? = some a → ¬ Consonant a :=
          fun a ha hca => hadj a c ha rfl ⟨hca, (isConsonant_iff c).1 hc⟩
        dsimp only
        generalize (c :: cs).takeWhile isConsonant = chunk at *
        generalize (c :: cs).dropWhile isConsonant = rest' at *
        cases h1 : rsZihConsonants acc mz v chunk st with
        | error e => rw [h1] at h; cases h
        | ok st1 =>
          rw [h1] at h
          dsimp only at h
          obtain ⟨h2, h3, rfl⟩ := rs_zihConsonants_relax hne (fun k => by
            rintro c3 hc3 ⟨x, y, e⟩
            exact hm k c3 hc3 ⟨pre ++ x, y ++ rest', by rw [hv, heq, e]; simp⟩) h1
          rw [h2, ok_bind]
          refine ih (pre := pre ++ chunk) h (by rw [hv, heq]; simp) (by simp [hp]) ?_ ?_ ?_ ?_
          · simp only [List.filter_append, List.length_append, filter_cons hall, hn]
          · intro hcp
            dsimp only at hcp
            split at hcp
            · cases hcp
            · rename_i hlen
              have hlen : chunk.length < 2 := by
                apply Nat.lt_of_not_le; intro hl; exact hlen ⟨hl, hcp⟩
              have hx : ∃ x, chunk = [x] := by
                match chunk, hne, hlen with
                | [x], _, _ => exact ⟨x, rfl⟩
                | _ :: _ :: _, _, h => simp at h; omega
              obtain ⟨x, rfl⟩ := hx
              exact adjAll_append.2 ⟨hnone hcp, adjAll_single, fun a b ha _ hab => hpre a ha hab.1⟩
          · intro a b _ hb hab
            exact isConsonant_false.1 (hhead b hb) hab.2
          · intro p hp'
            dsimp only at hp'
            split at hp'
            · rename_i hl
              cases hp'
              match chunk, hl, hall, heq, h3 with
              | a :: b :: ch, hl, hall, heq, h3 =>
                have e : v = pre ++ a :: b :: (ch ++ rest') := by rw [hv, heq]; simp
                have hQ : AdjAll NotCc (pre ++ [a]) := adjAll_append.2 ⟨hnone hl.2, adjAll_single, fun x y hx _ hxy => hpre x hx hxy.1⟩
                rw [hp]
                refine ⟨⟨⟨a, b, by rw [e]; simp, by rw [e]; simp, (isConsonant_iff a).1 (hall a (by simp)), (isConsonant_iff b).1 (hall b (by simp))⟩, ?_⟩, ?_⟩
                · intro i hi x y hx hy
                  have e2 : v = (pre ++ [a]) ++ b :: (ch ++ rest') := by rw [e]; simp
                  rw [e2, List.getElem?_append_left (by simp; omega)] at hx hy
                  exact adjAll_at hQ hx hy
                · intro h4
                  rw [e, List.take_left, ← hn] at h4
                  rw [← hp]
                  exact h3 hl.1 hl.2 h4
            · exact hgood p hp'
      · rename_i hcc
        rw [if_neg hcc]
        split at h
        · rename_i hvw
          rw [if_pos hvw]
          have hne := takeWhile_ne_nil (w := cs) hvw
          have hall := takeWhile_all (p := isVowel) (w := c :: cs)
          have heq : c :: cs = (c :: cs).takeWhile isVowel ++ (c :: cs).dropWhile isVowel :=
            List.takeWhile_append_dropWhile.symm
          dsimp only
          generalize (c :: cs).takeWhile isVowel = chunk at *
          generalize (c :: cs).dropWhile isVowel = rest' at *
          have hnc : ∀ d ∈ chunk, isConsonant d = false := fun d hd => not_consonant_of_vowel (hall d hd)
          cases h1 : rsZihVowels v chunk st with
          | error e => rw [h1] at h; cases h
          | ok st1 =>
            rw [h1] at h
            dsimp only at h
            have h2 := (rs_zihVowels (by rw [hv]; simp) (by rw [hv, hp]; simp)).1 h1
            rw [zihVowels_relax h2, ok_bind]
            obtain ⟨sy, hsy, rfl, -⟩ := zihVowels_ok h2
            refine ih (pre := pre ++ chunk) h (by rw [hv, heq]; simp) (by simp [hp]) ?_ ?_ ?_ hgood
            · simp only [List.filter_append, List.length_append, filter_not_cons hnc, hn]; simp
            · intro hcp
              refine adjAll_append.2 ⟨hnone hcp, ?_, ?_⟩
              · rintro a b ⟨x, z, e⟩ hab
                exact isConsonant_false.1 (hnc a (by rw [e]; simp)) hab.1
              · intro a b _ hb hab
                have hm : b ∈ chunk := by
                  cases chunk with
                  | nil => cases hb
                  | cons z chunk => cases hb; simp
                exact isConsonant_false.1 (hnc b hm) hab.2
            · intro a b ha hb hab
              rw [getLast?_append_ne _ hne] at ha
              exact isConsonant_false.1 (hnc a (getLast_mem ha)) hab.1
        · rename_i hvw
          rw [if_neg hvw]
          split at h
          · rename_i hap
            rw [if_pos hap]
            subst hap
            obtain ⟨hb1, h⟩ := rs_ite_ok h
            obtain ⟨hb2, h⟩ := rs_ite_ok h
            have hnc : ¬ Consonant '\'' := by decide
            have key := ih (pre := pre ++ ['\'']) h (by rw [hv]; simp) (by simp [hp]) (by simp [List.filter_append, hn, hnc]) (by
              intro hcp
              exact adjAll_append.2 ⟨hnone hcp, adjAll_single, fun a b _ hb hab => by cases hb; exact hnc hab.2⟩) (by
              intro a b ha hb hab
              simp at ha
              rw [← ha] at hab
              exact hnc hab.1) hgood
            obtain ⟨⟨st2, k1, k2⟩, k3⟩ := key
            exact ⟨⟨st2, (if_neg hb1).trans ((if_neg hb2).trans k1), k2⟩, k3⟩
          · cases h

theorem zihScan_sounds_from {mz : Bool} {v : Str} {st0 st : ZState} (hp : st0.pos = 0) (h : zihScan mz v (v.length + 1) v st0 = .ok st) :
    Sounds mz v := by
  obtain ⟨h1, h2⟩ := zihScan_runs (pre := []) h rfl hp (by simp)
  obtain ⟨w1, w2, w3, w4, w5⟩ := zihScan_wf (pre := []) h rfl hp
  refine ⟨?_, ?_, w1.pairs, w1.triples, fun ch t hr => (h1 [] ch t hr (by simp)).2.1 rfl, fun u ch t hr => (h1 u ch t hr (by simp)).2.2,
    fun u x t hr => h2 u x t hr (by simp)⟩
  · intro c hc
    rcases w1.letters c hc with h | h | h | h
    · exact .inl h
    · exact .inr (.inl h)
    · exact .inr (.inr h)
    · exact absurd h (w3 c hc)
  · rintro u t rfl
    constructor
    · rcases List.eq_nil_or_concat u with rfl | ⟨u, a, rfl⟩
      · have := w4 rfl
        simp at this
      · refine ⟨a, by simp, ?_⟩
        rcases (w2 a '\'' ⟨u, t, by simp⟩).1 rfl with h | h
        · exact h
        · exact absurd h (w3 a (by simp))
    · cases t with
      | nil => exact absurd (by simp) w5
      | cons b t =>
        refine ⟨b, rfl, ?_⟩
        rcases (w2 '\'' b ⟨u, t, rfl⟩).2 rfl with h | h
        · exact h
        · exact absurd h (w3 b (by simp))

/-- What is left of a word from a single consonant on. -/
theorem sounds_tail {mz : Bool} {x m : Str} {c : Char} (h : Sounds mz (x ++ c :: m)) (hx : ∀ a, x.getLast? = some a → ¬ Consonant a)
    (hc : Consonant c) (hm : ∀ a, m.head? = some a → ¬ Consonant a) : Sounds mz (c :: m) := by
  have hrun : ∀ {P : Char → Prop} {u z t}, Run P (c :: m) u z t → u ≠ [] → Run P (x ++ c :: m) (x ++ u) z t := by
    intro P u z t hr hu
    refine ⟨by rw [hr.eq]; simp, hr.some, hr.all, ?_, hr.after⟩
    intro d hd
    rw [getLast?_append_ne _ hu] at hd
    exact hr.before d hd
  refine ⟨fun d hd => h.letters d (by simp [List.mem_cons.1 hd]), ?_, ?_, ?_, ?_, ?_, ?_⟩
  · intro u t e
    have hu : u ≠ [] := by
      rintro rfl
      simp at e
      rw [e.1] at hc
      revert hc; decide
    obtain ⟨⟨a, ha, ha2⟩, h2⟩ := h.apostrophe (x ++ u) t (by rw [e]; simp)
    rw [getLast?_append_ne _ hu] at ha
    exact ⟨⟨a, ha, ha2⟩, h2⟩
  · rintro a b ⟨u, t, e⟩
    exact h.pairs a b ⟨x ++ u, t, by rw [e]; simp⟩
  · rintro t ht ⟨u, w, e⟩
    exact h.triples t ht ⟨x ++ u, w, by rw [e]; simp⟩
  · intro ch t hr
    have e := hr.eq
    match ch, hr.some, hr.all, e with
    | [a], _, hall, _ => exact .one (hall a (by simp))
    | a :: b :: ch, _, hall, e =>
      simp at e
      exact absurd (hall b (by simp)) (hm b (by rw [e.2]; rfl))
  · intro u ch t hr hu
    exact h.middle _ _ _ (hrun hr hu) (by simp [hu])
  · intro u z t hr
    have hu : u ≠ [] := by
      rintro rfl
      have e := hr.eq
      match z, hr.some, hr.all, e with
      | a :: z, _, hall, e =>
        simp at e
        exact not_vowel_consonant (hall a (by simp)) (e.1 ▸ hc)
    obtain ⟨syls, h1, h2, h3⟩ := h.vowels _ _ _ (hrun hr hu)
    exact ⟨syls, h1, h2, fun _ => h3 (by simp [hu])⟩

theorem syllables_split {b : Spec.Before} {w : Str} {n : Nat} (h : Syllables b w n) : ∀ {p q : Str} {k : Char}, w = p ++ k :: q → Consonant k →
    ∃ n1 n2, Syllables b p n1 ∧ Syllables .letter q n2 ∧ n = n1 + n2 := by
  have hsplit : ∀ {s w p q : Str} {k : Char}, (∀ c ∈ s, Vowel c) → s ++ w = p ++ k :: q → Consonant k → ∃ p', p = s ++ p' ∧ w = p' ++ k :: q := by
    intro s w p q k hs e hk
    rcases List.append_eq_append_iff.1 e with ⟨z, h1, h2⟩ | ⟨z, h1, h2⟩
    · exact ⟨z, h1, h2⟩
    · cases z with
      | nil => exact ⟨[], by simp at h1; rw [h1]; simp, by simpa using h2.symm⟩
      | cons d z =>
        simp at h2
        exact absurd hk (not_vowel_consonant (hs k (by rw [h1, h2.1]; simp)))
  induction h with
  | nil => intro p q k e; simp at e
  | @letter b c w n hc hw ih =>
    intro p q k e hk
    cases p with
    | nil =>
      simp at e
      obtain ⟨rfl, rfl⟩ := e
      exact ⟨0, n, .nil, hw, by omega⟩
    | cons d p =>
      simp at e
      obtain ⟨rfl, e⟩ := e
      obtain ⟨n1, n2, h1, h2, h3⟩ := ih e hk
      exact ⟨n1, n2, .letter hc h1, h2, h3⟩
  | @nucleus b s w n hb hs hw ih =>
    intro p q k e hk
    obtain ⟨p', rfl, e2⟩ := hsplit (nucleus_vowels hs) e hk
    obtain ⟨n1, n2, h1, h2, h3⟩ := ih e2 hk
    exact ⟨n1 + 1, n2, .nucleus hb hs h1, h2, by omega⟩
  | @glided b s w n hb hs hw ih =>
    intro p q k e hk
    obtain ⟨p', rfl, e2⟩ := hsplit (glided_vowels hs) e hk
    obtain ⟨n1, n2, h1, h2, h3⟩ := ih e2 hk
    exact ⟨n1 + 1, n2, .glided hb hs h1, h2, by omega⟩

theorem syllables_pos {b : Spec.Before} {w : Str} {n : Nat} (h : Syllables b w n) : ∀ {c}, c ∈ w → Vowel c → 1 ≤ n := by
  induction h with
  | nil => intro c hc; cases hc
  | @letter b c w n hc hw ih =>
    intro d hd hv
    rcases List.mem_cons.1 hd with rfl | hd
    · exfalso
      rcases hc with h | h
      · exact not_vowel_consonant hv h
      · rw [h] at hv; revert hv; decide
    · exact ih hd hv
  | nucleus => intros; omega
  | glided => intros; omega

/-- Nothing that begins with a consonant and a vowel is a slinku'i. -/
theorem notSlinkuhi_cv {y : YHyphens} {mz : Bool} {c d : Char} {t : Str} (hc : Consonant c) (hd : Vowel d) : NotSlinkuhi y mz (c :: d :: t) := by
  intro _ qs hq e
  have hr := hq.reading
  obtain ⟨p, hp, hr1⟩ := hr.first
  obtain ⟨q, v, rfl⟩ := two_pieces hp hq.two
  have e' : p ++ (q :: v).flatten = 't' :: 'o' :: c :: d :: t := by
    rw [← List.flatten_cons, e]; rfl
  have hov : ¬ Consonant 'o' := by decide
  have hca : c ≠ '\'' := by rintro rfl; revert hc; decide
  have h3 : p = ['t', 'o', c] := by
    cases hr1 with
    | cvv _ _ h => simp at e'; exact absurd (e'.2.2.1 ▸ hc) (not_vowel_consonant h)
    | cvhv _ _ _ => simp at e'; exact absurd e'.2.2.1.symm hca
    | cvc _ _ _ => simp at e'; simp [e'.1, e'.2.1, e'.2.2.1]
    | cvcc _ _ h => simp at e'; exact absurd (e'.2.2.2.1 ▸ h.2.1) (not_vowel_consonant hd)
    | ccv h _ => simp at e'; exact absurd (e'.2.1 ▸ (initial_consonants h).2) hov
    | ccvc h _ _ => simp at e'; exact absurd (e'.2.1 ▸ (initial_consonants h).2) hov
    | gismu h =>
      cases h with
      | cvccv _ _ h _ => simp at e'; exact absurd (e'.2.2.2.1 ▸ h.2.1) (not_vowel_consonant hd)
      | ccvcv h _ _ _ => simp at e'; exact absurd (e'.2.1 ▸ (initial_consonants h).2) hov
  subst h3
  have e2 : q ++ v.flatten = d :: t := by simpa using e'
  have hdne : ∀ x : Char, ¬ Vowel x → ∀ z : Str, q = x :: z → False := by
    rintro x hx z rfl
    simp at e2
    exact hx (e2.1 ▸ hd)
  have hlink := (links_cons.1 hr.links).1
  have hrq : ∀ {q : Str}, Rafsi mz q → ∃ a z, q = a :: z ∧ ¬ Vowel a := by
    intro q h
    obtain ⟨a, z, e, ha⟩ := rafsi_first h
    exact ⟨a, z, e, fun hv => not_vowel_consonant hv ((isConsonant_iff a).1 ha)⟩
  have : ∃ a z, q = a :: z ∧ ¬ Vowel a := by
    cases hlink with
    | rafsi h1 h2 => exact hrq h2
    | y h1 => exact ⟨'y', [], rfl, by decide⟩
    | apostropheY _ h1 => exact ⟨'\'', ['y'], rfl, by decide⟩
    | afterY h1 => simp at h1
    | rOrN _ h1 _ h2 =>
      simp at h2
      rcases h2 with rfl | rfl
      · exact ⟨'r', [], rfl, by decide⟩
      · exact ⟨'n', [], rfl, by decide⟩
  obtain ⟨a, z, e3, ha⟩ := this
  exact hdne a ha z e3

theorem last_consonant {u : Str} (h : 1 ≤ (u.filter (fun c => Consonant c)).length) :
    ∃ x c m, u = x ++ c :: m ∧ Consonant c ∧ ∀ d ∈ m, ¬ Consonant d := by
  induction u with
  | nil => simp at h
  | cons a u ih =>
    by_cases h1 : 1 ≤ (u.filter (fun c => Consonant c)).length
    · obtain ⟨x, c, m, rfl, hc, hm⟩ := ih h1
      exact ⟨a :: x, c, m, rfl, hc, hm⟩
    · have h0 : u.filter (fun c => Consonant c) = [] := List.length_eq_zero_iff.1 (by omega)
      have hn : ∀ d ∈ u, ¬ Consonant d := by
        intro d hd hcd
        have : d ∈ u.filter (fun c => Consonant c) := List.mem_filter.2 ⟨hd, by simpa using hcd⟩
        rw [h0] at this
        cases this
      by_cases ha : Consonant a
      · exact ⟨[], a, u, rfl, ha, hn⟩
      · rw [List.filter_cons_of_neg (by simpa using ha), h0] at h
        simp at h

theorem rsSplitBy_parts {p : Char → Bool} : ∀ {s v : Str} {vs : List Str}, rsSplitBy p s = v :: vs →
    ((∀ d ∈ v, p d = false) ∧ ∃ post, s = v ++ post ∧ (post = [] ∨ ∃ d t, post = d :: t ∧ p d = true)) ∧
    ∀ w ∈ vs, ∃ pre d post, s = pre ++ d :: (w ++ post) ∧ p d = true ∧ (∀ e ∈ w, p e = false) ∧ (post = [] ∨ ∃ d t, post = d :: t ∧ p d = true) := by
  intro s
  induction s with
  | nil =>
    intro v vs h
    simp [rsSplitBy] at h
    obtain ⟨rfl, rfl⟩ := h
    exact ⟨⟨by simp, [], rfl, .inl rfl⟩, by simp⟩
  | cons c cs ih =>
    intro v vs h
    unfold rsSplitBy at h
    split at h
    · rename_i hc
      simp at h
      obtain ⟨rfl, rfl⟩ := h
      refine ⟨⟨by simp, c :: cs, rfl, .inr ⟨c, cs, rfl, hc⟩⟩, ?_⟩
      intro w hw
      cases hs : rsSplitBy p cs with
      | nil => rw [hs] at hw; cases hw
      | cons v' vs' =>
        rw [hs] at hw
        obtain ⟨⟨h1, post, h2, h3⟩, h4⟩ := ih hs
        rcases List.mem_cons.1 hw with rfl | hw
        · exact ⟨[], c, post, by rw [h2]; rfl, hc, h1, h3⟩
        · obtain ⟨pre, d, post, e, k⟩ := h4 w hw
          exact ⟨c :: pre, d, post, by rw [e]; rfl, k⟩
    · rename_i hc
      cases hs : rsSplitBy p cs with
      | nil =>
        rw [hs] at h
        exfalso
        cases cs with
        | nil => cases hs
        | cons d cs =>
          unfold rsSplitBy at hs
          split at hs
          · cases hs
          · split at hs <;> cases hs
      | cons v' vs' =>
        rw [hs] at h
        obtain ⟨⟨h1, post, h2, h3⟩, h4⟩ := ih hs
        simp at h
        obtain ⟨rfl, rfl⟩ := h
        refine ⟨⟨?_, post, by rw [h2]; rfl, h3⟩, ?_⟩
        · intro d hd
          rcases List.mem_cons.1 hd with rfl | hd
          · simpa using hc
          · exact h1 d hd
        · intro w hw
          obtain ⟨pre, d, post, e, k⟩ := h4 w hw
          exact ⟨c :: pre, d, post, by rw [e]; rfl, k⟩

theorem cmavoVowels_of {first : Bool} {w : Str} {syls : List Str} (h : syls.flatten = w ∧ VowelRun syls) : rsCmavoVowels first w = true := by
  unfold rsCmavoVowels
  rw [rs_splitVowel, splitVowelCluster_iff.2 h]
  simp [Except.mapError]

/-- What stands before a single consonant is a string of cmavo. -/
theorem compound_of_sounds {mz : Bool} {x m : Str} {c l : Char} (h : Sounds mz (x ++ c :: m)) (hc : Consonant c) (hl : x.getLast? = some l)
    (hlv : Vowel l) (hadj : AdjAll NotCc x) : rsIsCmavoCompound x = true := by
  unfold rsIsCmavoCompound
  have hsep : ∀ d, (rsIsConsonant d || d == '\'') = true → ¬ Vowel d := by
    intro d hd hv
    simp only [Bool.or_eq_true, beq_iff_eq, rsIsConsonant_eq] at hd
    rcases hd with h | rfl
    · exact not_vowel_consonant hv ((isConsonant_iff d).1 h)
    · revert hv; decide
  have hvow : ∀ d ∈ x, (rsIsConsonant d || d == '\'') = false → Vowel d := by
    intro d hd h2
    simp only [Bool.or_eq_false_iff, beq_eq_false_iff_ne, rsIsConsonant_eq] at h2
    rcases h.letters d (by simp [hd]) with k | k | k
    · exact k
    · exact absurd ((isConsonant_iff d).2 k) (by simp [h2.1])
    · exact absurd k h2.2
  cases hs : rsSplitBy (fun c => rsIsConsonant c || c == '\'') x with
  | nil => rfl
  | cons v vs =>
    obtain ⟨⟨h1, post, h2, h3⟩, h4⟩ := rsSplitBy_parts hs
    have haft : ∀ {post : Str}, (post = [] ∨ ∃ d t, post = d :: t ∧ (rsIsConsonant d || d == '\'') = true) →
        ∀ d, (post ++ c :: m).head? = some d → ¬ Vowel d := by
      rintro post (rfl | ⟨e, t, rfl, he⟩) d hd
      · cases hd; exact fun hv => not_vowel_consonant hv hc
      · cases hd; exact hsep _ he
    simp only [Bool.and_eq_true, List.all_eq_true]
    constructor
    · cases v with
      | nil => rfl
      | cons a v =>
        obtain ⟨syls, k1, k2, -⟩ := h.vowels [] (a :: v) (post ++ c :: m) ⟨by rw [h2]; simp, by simp, fun d hd => hvow d (by rw [h2]; exact List.mem_append_left _ hd) (h1 d hd), by simp, haft h3⟩
        exact cmavoVowels_of ⟨k1, k2⟩
    · intro w hw
      obtain ⟨pre, d, post, e, hd, hw2, hp⟩ := h4 w hw
      cases w with
      | nil =>
        exfalso
        rcases hp with rfl | ⟨f, t, rfl, hf⟩
        · rw [e] at hl
          simp at hl
          exact hsep d hd (hl ▸ hlv)
        · have e2 : x ++ c :: m = pre ++ d :: f :: (t ++ c :: m) := by rw [e]; simp
          simp only [Bool.or_eq_true, beq_iff_eq, rsIsConsonant_eq] at hd
          rcases hd with hd | rfl
          · have hf' := hf
            simp only [Bool.or_eq_true, beq_iff_eq, rsIsConsonant_eq] at hf'
            rcases hf' with hf' | rfl
            · exact hadj d f ⟨pre, t, by rw [e]; simp⟩ ⟨(isConsonant_iff d).1 hd, (isConsonant_iff f).1 hf'⟩
            · obtain ⟨⟨a, ha, hav⟩, -⟩ := h.apostrophe (pre ++ [d]) (t ++ c :: m) (by rw [e2]; simp)
              simp at ha
              exact not_vowel_consonant hav (ha ▸ (isConsonant_iff d).1 hd)
          · obtain ⟨-, b, hb, hbv⟩ := h.apostrophe pre (f :: (t ++ c :: m)) e2
            cases hb
            exact hsep f hf hbv
      | cons a w =>
        obtain ⟨syls, k1, k2, -⟩ := h.vowels (pre ++ [d]) (a :: w) (post ++ c :: m) ⟨by rw [e]; simp, by simp,
          fun f hf => hvow f (by rw [e]; exact List.mem_append_right _ (List.mem_cons_of_mem _ (List.mem_append_left _ hf))) (hw2 f hf), by
            intro f hf
            simp at hf
            exact hf ▸ hsep d hd, haft hp⟩
        exact cmavoVowels_of ⟨k1, k2⟩

/-- The Python version accepts a word if it is a zi'evla. -/
theorem accepts_of_check {s : Settings} {v : Str} {sh : Shape} (hlet : ∀ c ∈ v, Vowel c ∨ Consonant c ∨ c = '\'') (hlast : ∃ l, v.getLast? = some l ∧ Vowel l)
    (h0 : ∃ c, v.head? = some c ∧ Consonant c) (h : checkZihevlaOrRafsi (program .linked) true s.yHyphens s.expRafsi s.allowMz v = .ok sh) :
    ∃ r, analyseBrivla .linked s v = .ok r := by
  obtain ⟨l, hl, hlv⟩ := hlast
  obtain ⟨c0, hc0, hcc⟩ := h0
  have hread : reading v = v := reading_lettersY fun c hc => by
    rcases hlet c hc with h | h | h
    · exact .inl h
    · exact .inr (.inl h)
    · exact .inr (.inr (.inl h))
  have hy : 'y' ∉ v := by
    intro hc
    rcases hlet _ hc with h | h | h <;> revert h <;> decide
  have hlv' := (isVowel_iff l).2 hlv
  have hlc := not_consonant_of_vowel hlv'
  have hne : v ≠ [] := by rintro rfl; cases hl
  rw [analyseBrivla_program]
  unfold analyseR analyseNorm
  rw [normalise_eq hne, ok_bind, hread]
  simp only [hc0, hl, hlc, hlv', Bool.false_eq_true, if_false, Bool.not_true, Bool.not_false, Bool.and_false, Bool.false_and, Bool.true_and]
  by_cases hg : isGismu s.allowMz v = true
  · rw [if_pos hg]
    exact ⟨_, rfl⟩
  rw [if_neg hg]
  have hrest : analyseRest (program .linked) s false c0 v = .ok (.zihevla, [v]) := by
    unfold analyseRest
    rw [splitOn_of_not_mem hy, (isConsonant_iff c0).2 hcc, h]
    simp
  have hj := jvokaha_fails (y := s.yHyphens) (co := s.consonants) (gl := s.glides) (mz := s.allowMz) ⟨l, hl, hlv⟩ hy
  cases hjv : jvokaha (program .linked) s.yHyphens s.consonants s.glides s.allowMz v with
  | ok parts => exact ⟨_, rfl⟩
  | error e =>
    have := hj e hjv
    simp at this
    rcases this with rfl | rfl
    · exact ⟨_, hrest⟩
    · exact ⟨_, hrest⟩

theorem late_absurd {acc brivla : Str → Bool} {slin : Str → Except RsErr Bool} {y : YHyphens} {ex mz : Bool} {v : Str} {sh : Shape}
    (hlast : ∃ l, v.getLast? = some l ∧ Vowel l) (hlen : v.length < 180000) (hm : mz = true → NoMzCc v)
    (hacc : ∀ q, 0 < q → q < v.length → ∀ r, analyseBrivla .linked { yHyphens := y, expRafsi := ex, allowMz := mz } (v.drop q) = .ok r →
      acc (v.drop q) = true)
    (hbr : ∀ q, 0 < q → q < v.length → brivla (v.drop q) = false → isBrivla .linked { yHyphens := y } (v.drop q) = .ok false)
    (h : rsCheck acc brivla slin ex mz true v = .ok sh) : ¬ LateCluster v := by
  rintro ⟨u, a, b, t, e, ha, hb, h2, hadj⟩
  obtain ⟨l, hl, hlv⟩ := hlast
  unfold rsCheck at h
  obtain ⟨-, h⟩ := rs_ite_ok h
  cases hst : rsZihScan acc mz v (v.length + 1) v {} with
  | error er => rw [hst] at h; cases h
  | ok st =>
    rw [hst] at h
    dsimp only at h
    obtain ⟨hsy, h⟩ := rs_ite_ok h
    obtain ⟨⟨st2, hst2, hsyl⟩, hgood⟩ := rs_scan_facts hm (pre := []) hst rfl rfl rfl (fun _ => adjAll_nil) (by simp) (by intro p hp; cases hp)
    have hS : Sounds mz v := zihScan_sounds_from rfl hst2
    obtain ⟨N, hN, hN2⟩ := zihScan_syllables (pre := []) hst2 rfl rfl
    rw [if_pos rfl] at hN
    have hN2 : st.numSyllables = N := by rw [← hsyl, hN2]; simp
    cases hcp : st.clusterPos with
    | none => rw [hcp] at h; cases h
    | some p =>
      rw [hcp] at h
      dsimp only at h
      obtain ⟨htest, -⟩ := rs_ite_ok h
      obtain ⟨hfirst, hfall⟩ := hgood p hcp
      have hpu : p = u.length := by
        refine firstAt_unique hfirst ⟨⟨a, b, by rw [e]; simp, by rw [e]; simp, ha, hb⟩, ?_⟩
        intro i hi x z hx hz
        have e2 : v = (u ++ [a]) ++ b :: t := by rw [e]; simp
        rw [e2, List.getElem?_append_left (by simp; omega)] at hx hz
        exact adjAll_at (Q := NotCc) hadj hx hz
      subst hpu
      have hfall := hfall (by rw [e, List.take_left]; omega)
      obtain ⟨x, c, m, rfl, hc, hmc⟩ := last_consonant (u := u) (by omega)
      have hcm : (m.filter (fun c => Consonant c)) = [] := by
        rw [List.filter_eq_nil_iff]
        intro d hd
        simpa using hmc d hd
      have hxne : x ≠ [] := by
        rintro rfl
        simp [hc, hcm] at h2
      have hmne : m ≠ [] := by
        rintro rfl
        exact hadj c a ⟨x, [], by simp⟩ ⟨hc, ha⟩
      obtain ⟨d, m', rfl⟩ := List.exists_cons_of_ne_nil hmne
      have e' : v = x ++ c :: d :: (m' ++ a :: b :: t) := by rw [e]; simp
      rw [e'] at hS
      have hd : Vowel d := by
        rcases hS.letters d (by simp) with k | k | k
        · exact k
        · exact absurd k (hmc d (by simp))
        · subst k
          obtain ⟨⟨z, hz, hzv⟩, -⟩ := hS.apostrophe (x ++ [c]) (m' ++ a :: b :: t) (by simp)
          simp at hz
          exact absurd (hz ▸ hc) (not_vowel_consonant hzv)
      obtain ⟨lx, hlx⟩ : ∃ lx, x.getLast? = some lx := by
        cases hx : x.getLast? with
        | none => exact absurd (List.getLast?_eq_none_iff.1 hx) hxne
        | some lx => exact ⟨lx, rfl⟩
      have hlxc : ¬ Consonant lx := by
        intro hk
        obtain ⟨x', rfl⟩ := List.getLast?_eq_some_iff.1 hlx
        exact hadj lx c ⟨x', d :: m' ++ [a], by simp⟩ ⟨hk, hc⟩
      have hlxv : Vowel lx := by
        rcases hS.letters lx (by simp [List.mem_of_getLast? hlx]) with k | k | k
        · exact k
        · exact absurd k hlxc
        · subst k
          obtain ⟨x', rfl⟩ := List.getLast?_eq_some_iff.1 hlx
          obtain ⟨-, z, hz, hzv⟩ := hS.apostrophe x' (c :: d :: (m' ++ a :: b :: t)) (by simp)
          cases hz
          exact absurd hc (not_vowel_consonant hzv)
      have hadjx : AdjAll NotCc x := by
        rintro f g ⟨i, j, eij⟩
        exact hadj f g ⟨i, j ++ c :: d :: m' ++ [a], by rw [eij]; simp⟩
      have hcomp := compound_of_sounds hS hc hlx hlxv hadjx
      have hS' := sounds_tail hS (fun k hk => by rw [hlx] at hk; cases hk; exact hlxc) hc (fun k hk => by cases hk; exact fun hk => not_vowel_consonant hd hk)
      have hdrop : v.drop x.length = c :: d :: (m' ++ a :: b :: t) := by rw [e', List.drop_left]
      have hxl : 0 < x.length := List.length_pos_iff.2 hxne
      have hvl : v.length = x.length + (m'.length + t.length + 4) := by rw [e']; simp; omega
      have hl' : (c :: d :: (m' ++ a :: b :: t)).getLast? = some l := by
        rw [e', getLast?_append_ne _ (by simp)] at hl
        exact hl
      have hlt : l ∈ t := by
        have : (t.getLast? ) = some l := by
          have e3 : c :: d :: (m' ++ a :: b :: t) = (c :: d :: (m' ++ [a, b])) ++ t := by simp
          have htne : t ≠ [] := by
            rintro rfl
            rw [show c :: d :: (m' ++ [a, b]) = (c :: d :: (m' ++ [a])) ++ [b] by simp, List.getLast?_concat] at hl'
            cases hl'
            exact not_vowel_consonant hlv hb
          rw [e3, getLast?_append_ne _ htne] at hl'
          exact hl'
        exact List.mem_of_getLast? this
      -- the syllables
      rw [e'] at hN
      obtain ⟨n1, n2, -, hn2, hNe⟩ := syllables_split hN rfl hc
      have hn2' : Syllables .nothing (c :: d :: (m' ++ a :: b :: t)) n2 := .letter (.inl hc) hn2
      have hn22 : 2 ≤ n2 := by
        obtain ⟨k1, k2, hk1, hk2, rfl⟩ := syllables_split hn2 (p := d :: m') (k := a) (q := b :: t) (by simp) ha
        have := syllables_pos hk1 (c := d) (by simp) hd
        have := syllables_pos hk2 (c := l) (by simp [hlt]) hlv
        omega
      -- the Python version accepts what is left
      have htw : ∀ z ∈ t.takeWhile isConsonant, isConsonant z = true := takeWhile_all
      have hform : ZihevlaForm mz (c :: d :: (m' ++ a :: b :: t)) := by
        refine ⟨hS', ⟨l, hl', hlv⟩, ⟨c :: d :: m', a :: b :: t.takeWhile isConsonant, t.dropWhile isConsonant, ⟨?_, by simp, ?_, ?_, ?_⟩, by simp, ?_⟩, n2, hn2', hn22⟩
        · simp [List.takeWhile_append_dropWhile]
        · intro z hz
          simp only [List.mem_cons] at hz
          rcases hz with rfl | rfl | hz
          · exact ha
          · exact hb
          · exact (isConsonant_iff z).1 (htw z hz)
        · intro z hz
          have : z ∈ d :: m' := by
            rw [show c :: d :: m' = [c] ++ (d :: m') from rfl, getLast?_append_ne _ (by simp)] at hz
            exact List.mem_of_getLast? hz
          exact hmc z this
        · intro z hz
          exact isConsonant_false.1 (dropWhile_head hz)
        · rw [List.filter_cons_of_pos (by simpa using hc), hcm]
          simp
      have htail : 2 < n2 → NoBrivlaTail y (c :: d :: (m' ++ a :: b :: t)) := by
        rintro hgt w ⟨u2, e2, hu2, hw, hadj2⟩
        have hwne : w ≠ [] := by
          rintro rfl
          rcases hw with h | h <;> simp [ConsonantInitial, Onglide] at h
        have hq : v.drop (x.length + u2.length) = w := by
          rw [← List.drop_drop, hdrop, e2, List.drop_left]
        have hu2l : 0 < u2.length := List.length_pos_iff.2 hu2
        have hwl : 0 < w.length := List.length_pos_iff.2 hwne
        have hsum : u2.length + w.length = m'.length + t.length + 4 := by
          have := congrArg List.length e2
          simp at this
          omega
        have hle : u2.length ≤ m'.length + 2 := by
          apply Nat.le_of_not_lt
          intro hgt
          have e4 : (c :: d :: m') ++ (a :: b :: t) = u2 ++ w := by rw [← e2]; simp
          rcases List.append_eq_append_iff.1 e4 with ⟨z, k1, k2⟩ | ⟨z, k1, k2⟩
          · cases z with
            | nil => rw [k1] at hgt; simp at hgt
            | cons f z =>
              simp at k2
              obtain ⟨rfl, k2⟩ := k2
              cases z with
              | nil =>
                simp at k2
                refine hadj2 a b ⟨c :: d :: m', [], ?_⟩ ⟨ha, hb⟩
                rw [k1, ← k2]; simp
              | cons g z =>
                simp at k2
                obtain ⟨rfl, k2⟩ := k2
                refine hadj2 a b ⟨c :: d :: m', z ++ w.take 1, ?_⟩ ⟨ha, hb⟩
                rw [k1]; simp
          · have := congrArg List.length k1
            simp at this
            omega
        have hqlt : x.length + u2.length < v.length := by omega
        rw [← hq]
        refine hbr _ (by omega) hqlt ?_
        have hpl : (x ++ c :: d :: m').length = x.length + m'.length + 2 := by simp; omega
        rw [hN2, hpl] at htest
        have htest : brivla (v.drop (x.length + m'.length + 2)) = false ∧ rsFallsBefore brivla v (x.length + m'.length + 2) = false := by
          simp only [Bool.and_eq_true, decide_eq_true_eq, Bool.or_eq_true, not_and, not_or, Bool.not_eq_true] at htest
          exact htest ⟨by omega, by omega⟩
        rcases Nat.eq_or_lt_of_le hle with heq | hlt2
        · rw [show x.length + u2.length = x.length + m'.length + 2 by omega]
          exact htest.1
        · have := htest.2
          unfold rsFallsBefore at this
          rw [List.any_eq_false] at this
          have := this (m'.length + 1 - u2.length) (List.mem_range.2 (by omega))
          rw [show x.length + m'.length + 2 - (m'.length + 1 - u2.length + 1) = x.length + u2.length by omega] at this
          rw [hq, rsIsConsonant_eq, rsIsGlide_eq] at this
          rw [hq]
          have hgl : (isConsonant (rsAt v (x.length + u2.length)) || isGlide w) = true := by
            rw [Bool.or_eq_true]
            rcases hw with hw | hw
            · left
              obtain ⟨f, w', rfl⟩ := List.exists_cons_of_ne_nil hwne
              have : v[x.length + u2.length]? = some f := by
                rw [← List.head?_drop, hq]; rfl
              rw [rsAt_of this]
              exact (isConsonant_iff f).2 hw
            · exact .inr ((isGlide_iff w).2 hw)
          rw [hgl] at this
          simpa using this
      obtain ⟨sh', hsh⟩ := (check_iff (y := y) (ex := ex) (mz := mz) ⟨l, hl', hlv⟩ (by
        have : (c :: d :: (m' ++ a :: b :: t)).length < 180000 := by rw [← hdrop, List.length_drop]; omega
        exact Nat.lt_of_lt_of_le this (by decide))).2
        ⟨hform, fun n hn hgt => htail (syllables_unique hn hn2' ▸ hgt), notSlinkuhi_cv hc hd⟩
      obtain ⟨r, hr⟩ := accepts_of_check (s := { yHyphens := y, expRafsi := ex, allowMz := mz }) hS'.letters ⟨l, hl', hlv⟩ ⟨c, rfl, hc⟩ hsh
      have hr := hacc x.length hxl (by omega) r (by rw [hdrop]; exact hr)
      -- so cmavo fall off
      unfold rsCmavoFall at hfall
      rw [List.any_eq_false] at hfall
      have := hfall (x.length - 1) (List.mem_range.2 (by simp; omega))
      dsimp only at this
      have htake : v.take x.length = x := by rw [e', List.take_left]
      rw [show x.length - 1 + 1 = x.length by omega, hr, hdrop, htake, rsBack_of hlx, hcomp, rsIsVowel_eq, (isVowel_iff lx).2 hlxv] at this
      refine this ?_
      have hst : START_VOWEL_CLUSTERS.contains [lx, rsAt (c :: d :: (m' ++ a :: b :: t)) 0] = false := by
        rw [Bool.eq_false_iff]
        intro hk
        have := nucleus_vowels (mem_start.1 (List.contains_iff_mem.1 hk)) c (by simp [rsAt_zero])
        exact not_vowel_consonant this hc
      rw [hst]
      simp

end Jvotci
