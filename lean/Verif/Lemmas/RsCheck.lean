import Verif.RsCheck
import Verif.Lemmas.RsAnalyse
import Verif.Lemmas.NoMz
import Verif.Lemmas.Depth
import Verif.Lemmas.GluedWord
import Verif.Props.RsTarmi

/-!
# Lemmas: zi'evla in the Rust crate
-/

namespace Jvotci

open Spec

/-- There are two consonants or more, none next to another, before the first pair of consonants. -/
def LateCluster (w : Str) : Prop :=
  ∃ u a b v, w = u ++ a :: b :: v ∧ Consonant a ∧ Consonant b ∧ 2 ≤ (u.filter (fun c => Consonant c)).length ∧
    ∀ c d, Adjacent (u ++ [a]) c d → ¬ (Consonant c ∧ Consonant d)

/-- Not two consonants. -/
def NotCc (a b : Char) : Prop := ¬ (Consonant a ∧ Consonant b)

/-- There is no mz before a consonant that may follow z at the beginning of a word. -/
def NoMzCc (w : Str) : Prop := ∀ c, InitialPair 'z' c → ¬ Occurs ['m', 'z', c] w

theorem not_odd_of {mz : Bool} {ch : Str} (hb : hasBadPair (validPairs mz) ch = false) (hm : mz = true → NoMzCc ch) : ¬ OddCluster ch := by
  rintro ⟨h1, h2, h3, h4⟩
  rename_i a b c
  have : PermissiblePair mz a b := by
    unfold hasBadPair at hb
    simp only [Bool.or_eq_false_iff, Bool.not_eq_false'] at hb
    exact validPairs_contains.1 hb.1
  obtain ⟨p1, p2, p3, p4, p5, p6, p7, p8⟩ := this
  refine h4 ⟨p1, p2, p3, p4, p5, p6, p7, fun e => ?_⟩
  have hmz := p8 e
  simp at e
  obtain ⟨rfl, rfl⟩ := e
  exact absurd ⟨[], [], by simp⟩ (hm hmz c h3)

theorem rs_zihConsonants_fwd {acc : Str → Bool} {mz : Bool} {v ch : Str} {st st' : ZState} (hne : ch ≠ [])
    (h : zihConsonants mz ch st = .ok st') : rsZihConsonants acc mz v ch st = .ok st' := by
  unfold zihConsonants at h
  unfold rsZihConsonants
  split at h
  · cases h
  rename_i h0
  dsimp only at h
  split at h
  · cases h
  rename_i h1
  split at h
  · cases h
  rename_i h2
  split at h
  · cases h
  rename_i h3
  split at h
  · cases h
  rename_i h4
  split at h
  · cases h
  rename_i h5
  have hmid : st.pos ≠ 0 → rsIsZihevlaMiddleCluster ch = true := by
    intro hp
    have hi : isZihevlaMiddleCluster ch = true := by simpa [hp] using h5
    exact (C85_cluster ch).2.1.2 (.inl hi)
  have hini : st.pos = 0 → rsIsZihevlaInitialCluster ch = true := by
    intro hp
    rw [rsIsZihevlaInitialCluster_eq hne]
    simpa [hp] using h4
  have hc : (if decide (ch.length ≥ 2) && st.clusterPos.isNone then some st.pos else st.clusterPos) =
      (if ch.length ≥ 2 ∧ st.clusterPos = none then some st.pos else st.clusterPos) := by
    simp
  rw [if_neg, hc]
  · dsimp only
    rw [if_neg, if_neg h2, if_neg h3, if_neg]
    · cases h; rfl
    · split <;> simp_all
    · simpa using h1
  · simp at h0 ⊢
    intro k1 k2 k3
    exact absurd k3 (by have := h0 k1 k2; omega)

theorem rs_zihConsonants_bwd {acc : Str → Bool} {mz : Bool} {v ch : Str} {st st' : ZState} (hne : ch ≠ [])
    (hl : ¬ (ch.length ≥ 2 ∧ st.clusterPos = none ∧ st.numConsonants > 1)) (hm : mz = true → NoMzCc ch)
    (h : rsZihConsonants acc mz v ch st = .ok st') : zihConsonants mz ch st = .ok st' := by
  unfold rsZihConsonants at h
  unfold zihConsonants
  rw [if_neg hl]
  split at h
  · cases h
  dsimp only at h
  split at h
  · cases h
  rename_i h1
  split at h
  · cases h
  rename_i h2
  split at h
  · cases h
  rename_i h3
  by_cases h4 : (!if st.pos = 0 then rsIsZihevlaInitialCluster ch else rsIsZihevlaMiddleCluster ch) = true
  · rw [if_pos h4] at h; cases h
  rw [if_neg h4] at h
  have hodd : ¬ OddCluster ch := not_odd_of (mz := mz) (by simpa using h2) hm
  have hc : (if decide (ch.length ≥ 2) && st.clusterPos.isNone then some st.pos else st.clusterPos) =
      (if ch.length ≥ 2 ∧ st.clusterPos = none then some st.pos else st.clusterPos) := by
    simp
  rw [hc] at h
  rw [rsIsZihevlaInitialCluster_eq hne, (rsIsZihevlaMiddleCluster_iff ch).2 hodd] at h4
  dsimp only
  rw [if_neg (by simpa using h1), if_neg h2, if_neg h3, if_neg, if_neg]
  · cases h; rfl
  · rintro ⟨k1, k2⟩; apply h4; rw [if_neg k1]; exact k2
  · rintro ⟨k1, k2⟩; apply h4; rw [if_pos k1]; exact k2

theorem rs_splitVowel (v : Str) : rsSplitVowelCluster v = (splitVowelCluster v).mapError toJ := rsSplitVowelsLoop_eq _ _ _

theorem rs_at_ne {v : Str} {i : Nat} (hi : i < v.length) : rsAt v i = v[i] := rsAt_of (List.getElem?_eq_getElem hi)

theorem rs_zihVowels {v ch : Str} {st st' : ZState} (hv : v ≠ []) (hp : st.pos ≤ v.length) :
    rsZihVowels v ch st = .ok st' ↔ zihVowels v ch st = .ok st' := by
  unfold rsZihVowels zihVowels
  rw [rs_splitVowel]
  cases hs : splitVowelCluster ch with
  | error e => cases e <;> simp [Except.mapError, toJ]
  | ok syl =>
    simp only [Except.mapError]
    have hb : (if st.pos = 0 then rsBack v 1 else rsAt v (st.pos - 1)) ≠ '\'' ↔
        (if st.pos = 0 then v.getLast? else v[st.pos - 1]?) ≠ some '\'' := by
      split
      · cases hg : v.getLast? with
        | none => simp at hg; exact absurd hg hv
        | some l => rw [rsBack_of hg]; simp
      · have hi : st.pos - 1 < v.length := by have := List.length_pos_iff.2 hv; omega
        rw [rs_at_ne hi, List.getElem?_eq_getElem hi]
        simp
    have hcond : ((st.clusterPos.isNone && decide ((if st.pos = 0 then rsBack v 1 else rsAt v (st.pos - 1)) ≠ '\'') && decide (syl.length ≥ 2) &&
        st.pos + syl.flatten.length == v.length) = true) ↔
        (st.clusterPos = none ∧ (if st.pos = 0 then v.getLast? else v[st.pos - 1]?) ≠ some '\'' ∧ syl.length ≥ 2 ∧
        st.pos + (join syl).length = v.length) := by
      rw [← hb]
      simp only [Bool.and_eq_true, Option.isNone_iff_eq_none, decide_eq_true_eq, beq_iff_eq, join, and_assoc]
    by_cases hq : (st.clusterPos = none ∧ (if st.pos = 0 then v.getLast? else v[st.pos - 1]?) ≠ some '\'' ∧ syl.length ≥ 2 ∧
        st.pos + (join syl).length = v.length)
    · rw [if_pos hq, if_pos (hcond.2 hq)]
      simp
    · rw [if_neg hq, if_neg (fun k => hq (hcond.1 k))]
      have : ∀ b : Bool, (decide (st.pos ≠ 0) && b) = (st.pos != 0 && b) := by
        intro b; by_cases h : st.pos = 0 <;> simp [h]
      rw [this]
      have hone : ∀ b : Bool, ((if (st.pos != 0 && b) = true then (.error .notZihevla : Except RsErr ZState)
          else .ok { st with pos := st.pos + ch.length, numSyllables := st.numSyllables + syl.length }) = .ok st' ↔
          (if (st.pos != 0 && b) = true then (.error .notZihevla : Except Err ZState)
          else .ok { st with pos := st.pos + ch.length, numSyllables := st.numSyllables + syl.length }) = .ok st') := by
        intro b
        cases (st.pos != 0 && b) <;> simp
      exact hone _

theorem rs_ite_ok {α : Type} {p : Prop} [Decidable p] {e : RsErr} {x : Except RsErr α} {y : α} (h : (if p then .error e else x) = .ok y) :
    ¬ p ∧ x = .ok y := by
  split at h
  · cases h
  · rename_i hp; exact ⟨hp, h⟩

theorem rs_vowel_at (v : Str) (i : Nat) : isVowel (rsAt v i) = (match v[i]? with | some c => isVowel c | none => false) := by
  unfold rsAt
  cases v[i]? with
  | none => decide
  | some c => rfl

theorem rs_scan_cons {acc : Str → Bool} {mz : Bool} {v cs : Str} {c : Char} {fuel : Nat} {st : ZState} :
    rsZihScan acc mz v (fuel + 1) (c :: cs) st =
    if isConsonant c then
      match rsZihConsonants acc mz v ((c :: cs).takeWhile isConsonant) st with
      | .ok st => rsZihScan acc mz v fuel ((c :: cs).dropWhile isConsonant) st
      | .error e => .error e
    else if isVowel c then
      match rsZihVowels v ((c :: cs).takeWhile isVowel) st with
      | .ok st => rsZihScan acc mz v fuel ((c :: cs).dropWhile isVowel) st
      | .error e => .error e
    else if c = '\'' then
      if st.pos < 1 || !(match v[st.pos - 1]? with | some v => isVowel v | none => false) then
        .error .notZihevla
      else if cs.isEmpty || !(match v[st.pos + 1]? with | some v => isVowel v | none => false) then
        .error .notZihevla
      else rsZihScan acc mz v fuel cs { st with pos := st.pos + 1 }
    else .error .notZihevla := by
  conv => lhs; unfold rsZihScan
  rw [rsIsConsonant_eq, rsIsVowel_eq]
  simp only [rs_vowel_at, show rsAt (c :: cs) 0 = c from rfl, List.isEmpty_cons, Bool.false_eq_true, if_false, List.drop_succ_cons, List.drop_zero, beq_iff_eq]
  rfl

theorem rs_scan_fwd {acc : Str → Bool} {mz : Bool} {v : Str} : ∀ {fuel : Nat} {rest pre : Str} {st st' : ZState},
    zihScan mz v fuel rest st = .ok st' → v = pre ++ rest → st.pos = pre.length → rsZihScan acc mz v fuel rest st = .ok st' := by
  intro fuel
  induction fuel with
  | zero => intro rest pre st st' h; cases h
  | succ fuel ih =>
    intro rest pre st st' h hv hp
    cases rest with
    | nil => cases h; rfl
    | cons c cs =>
      rw [rs_scan_cons]
      unfold zihScan at h
      split at h
      · rename_i hc
        obtain ⟨st1, h1, h⟩ := bind_ok h
        rw [if_pos hc, rs_zihConsonants_fwd (takeWhile_ne_nil (w := cs) hc) h1]
        obtain ⟨rfl, -⟩ := zihConsonants_ok h1
        exact ih (pre := pre ++ (c :: cs).takeWhile isConsonant) h
          (by rw [hv, List.append_assoc, List.takeWhile_append_dropWhile]) (by simp [hp])
      · rename_i hcc
        rw [if_neg hcc]
        split at h
        · rename_i hvw
          obtain ⟨st1, h1, h⟩ := bind_ok h
          rw [if_pos hvw, (rs_zihVowels (by rw [hv]; simp) (by rw [hv, hp]; simp)).2 h1]
          obtain ⟨sy, hsy, rfl, -⟩ := zihVowels_ok h1
          exact ih (pre := pre ++ (c :: cs).takeWhile isVowel) h
            (by rw [hv, List.append_assoc, List.takeWhile_append_dropWhile]) (by simp [hp])
        · rename_i hvw
          rw [if_neg hvw]
          split at h
          · rename_i hap
            obtain ⟨hb1, h⟩ := ite_error_ok h
            obtain ⟨hb2, h⟩ := ite_error_ok h
            rw [if_pos hap]
            refine (if_neg hb1).trans ((if_neg hb2).trans ?_)
            exact ih (pre := pre ++ [c]) h (by rw [hv]; simp) (by simp [hp])
          · cases h

theorem rs_scan_bwd {acc : Str → Bool} {mz : Bool} {v : Str} (hlate : ¬ LateCluster v) (hm : mz = true → NoMzCc v) :
    ∀ {fuel : Nat} {rest pre : Str} {st st' : ZState},
    rsZihScan acc mz v fuel rest st = .ok st' → v = pre ++ rest → st.pos = pre.length →
    st.numConsonants = (pre.filter (fun c => Consonant c)).length →
    (st.clusterPos = none → AdjAll NotCc pre) →
    (∀ a b, pre.getLast? = some a → rest.head? = some b → NotCc a b) → zihScan mz v fuel rest st = .ok st' := by
  intro fuel
  induction fuel with
  | zero => intro rest pre st st' h; cases h
  | succ fuel ih =>
    intro rest pre st st' h hv hp hn hnone hadj
    cases rest with
    | nil => cases h; rfl
    | cons c cs =>
      rw [rs_scan_cons] at h
      unfold zihScan
      split at h
      · rename_i hc
        rw [if_pos hc]
        have hne := takeWhile_ne_nil (w := cs) hc
        have hall := takeWhile_all (p := isConsonant) (w := c :: cs)
        have heq : c :: cs = (c :: cs).takeWhile isConsonant ++ (c :: cs).dropWhile isConsonant :=
          List.takeWhile_append_dropWhile.symm
        have hhead : ∀ d, ((c :: cs).dropWhile isConsonant).head? = some d → isConsonant d = false :=
          fun d hd => dropWhile_head hd
        have hpre : ∀ a, pre.getLast? = some a → ¬ Consonant a :=
          fun a ha hca => hadj a c ha rfl ⟨hca, (isConsonant_iff c).1 hc⟩
        dsimp only
        generalize (c :: cs).takeWhile isConsonant = chunk at *
        generalize (c :: cs).dropWhile isConsonant = rest' at *
        cases h1 : rsZihConsonants acc mz v chunk st with
        | error e => rw [h1] at h; cases h
        | ok st1 =>
          rw [h1] at h
          dsimp only at h
          have h2 := rs_zihConsonants_bwd hne (by
            rintro ⟨k1, k2, k3⟩
            apply hlate
            match chunk, k1, hall, heq with
            | a :: b :: ch, _, hall, heq =>
              refine ⟨pre, a, b, ch ++ rest', by rw [hv, heq]; simp, (isConsonant_iff a).1 (hall a (by simp)),
                (isConsonant_iff b).1 (hall b (by simp)), by rw [← hn]; exact k3, ?_⟩
              exact adjAll_append.2 ⟨hnone k2, adjAll_single, fun x y hx _ hxy => hpre x hx hxy.1⟩) (fun k => by
            rintro c3 hc3 ⟨x, y, e⟩
            exact hm k c3 hc3 ⟨pre ++ x, y ++ rest', by rw [hv, heq, e]; simp⟩) h1
          rw [h2, ok_bind]
          obtain ⟨rfl, -⟩ := zihConsonants_ok h2
          refine ih (pre := pre ++ chunk) h (by rw [hv, heq]; simp) (by simp [hp]) ?_ ?_ ?_
          · simp only [List.filter_append, List.length_append, filter_cons hall, hn]
          · intro hcp
            dsimp only at hcp
            split at hcp
            · cases hcp
            · rename_i hlen
              have hlen : chunk.length < 2 := by
                apply Nat.lt_of_not_le; intro hl; exact hlen ⟨hl, hcp⟩
              have hx : ∃ x, chunk = [x] := by
                match chunk, hne, hlen with
                | [x], _, _ => exact ⟨x, rfl⟩
                | _ :: _ :: _, _, h => simp at h; omega
              obtain ⟨x, rfl⟩ := hx
              exact adjAll_append.2 ⟨hnone hcp, adjAll_single, fun a b ha _ hab => hpre a ha hab.1⟩
          · intro a b _ hb hab
            exact isConsonant_false.1 (hhead b hb) hab.2
      · rename_i hcc
        rw [if_neg hcc]
        split at h
        · rename_i hvw
          rw [if_pos hvw]
          have hne := takeWhile_ne_nil (w := cs) hvw
          have hall := takeWhile_all (p := isVowel) (w := c :: cs)
          have heq : c :: cs = (c :: cs).takeWhile isVowel ++ (c :: cs).dropWhile isVowel :=
            List.takeWhile_append_dropWhile.symm
          dsimp only
          generalize (c :: cs).takeWhile isVowel = chunk at *
          generalize (c :: cs).dropWhile isVowel = rest' at *
          have hnc : ∀ d ∈ chunk, isConsonant d = false := fun d hd => not_consonant_of_vowel (hall d hd)
          cases h1 : rsZihVowels v chunk st with
          | error e => rw [h1] at h; cases h
          | ok st1 =>
            rw [h1] at h
            dsimp only at h
            have h2 := (rs_zihVowels (by rw [hv]; simp) (by rw [hv, hp]; simp)).1 h1
            rw [h2, ok_bind]
            obtain ⟨sy, hsy, rfl, -⟩ := zihVowels_ok h2
            refine ih (pre := pre ++ chunk) h (by rw [hv, heq]; simp) (by simp [hp]) ?_ ?_ ?_
            · simp only [List.filter_append, List.length_append, filter_not_cons hnc, hn]; simp
            · intro hcp
              refine adjAll_append.2 ⟨hnone hcp, ?_, ?_⟩
              · rintro a b ⟨x, z, e⟩ hab
                exact isConsonant_false.1 (hnc a (by rw [e]; simp)) hab.1
              · intro a b _ hb hab
                have hm : b ∈ chunk := by
                  cases chunk with
                  | nil => cases hb
                  | cons z chunk => cases hb; simp
                exact isConsonant_false.1 (hnc b hm) hab.2
            · intro a b ha hb hab
              rw [getLast?_append_ne _ hne] at ha
              exact isConsonant_false.1 (hnc a (getLast_mem ha)) hab.1
        · rename_i hvw
          rw [if_neg hvw]
          split at h
          · rename_i hap
            rw [if_pos hap]
            subst hap
            obtain ⟨hb1, h⟩ := rs_ite_ok h
            obtain ⟨hb2, h⟩ := rs_ite_ok h
            refine (if_neg hb1).trans ((if_neg hb2).trans ?_)
            have hnc : ¬ Consonant '\'' := by decide
            refine ih (pre := pre ++ ['\'']) h (by rw [hv]; simp) (by simp [hp]) ?_ ?_ ?_
            · simp [List.filter_append, hn, hnc]
            · intro hcp
              exact adjAll_append.2 ⟨hnone hcp, adjAll_single, fun a b _ hb hab => by cases hb; exact hnc hab.2⟩
            · intro a b ha hb hab
              simp at ha
              rw [← ha] at hab
              exact hnc hab.1
          · cases h

/-- Both accept, or both raise `NotZihevlaError`. -/
def SameCheck (x : Except Err Shape) (x' : Except RsErr Shape) : Prop :=
  (∃ a, x = .ok a ∧ x' = .ok a) ∨ (x = .error .notZihevla ∧ x' = .error .notZihevla)

theorem rs_falls {R : Rec} {y : YHyphens} {v : Str} {p : Nat} {brivla : Str → Bool} (hp : p < v.length)
    (hb : ∀ q, 0 < q → q ≤ p → isBrivlaR R { yHyphens := y } (v.drop q) = .ok (brivla (v.drop q))) : ∀ k i, 0 < i → i + k ≤ p →
    fallsApartBefore R y v p k i =
      if (List.range k).any (fun j => (isConsonant (rsAt v (p - (j + i))) || isGlide (v.drop (p - (j + i)))) && brivla (v.drop (p - (j + i))))
      then .error .notZihevla else .ok () := by
  intro k
  induction k with
  | zero => intro i _ _; rfl
  | succ k ih =>
    intro i hi hik
    have hlt : p - i < v.length := by omega
    unfold fallsApartBefore
    dsimp only
    rw [show idx v (p - i) = .ok v[p - i] by unfold idx; rw [List.getElem?_eq_getElem hlt], ok_bind]
    rw [List.range_succ_eq_map, List.any_cons, List.any_map]
    have ih := ih (i + 1) (by omega) (by omega)
    have hfun : ((fun j => (isConsonant (rsAt v (p - (j + i))) || isGlide (v.drop (p - (j + i)))) && brivla (v.drop (p - (j + i)))) ∘ Nat.succ) =
        (fun j => (isConsonant (rsAt v (p - (j + (i + 1)))) || isGlide (v.drop (p - (j + (i + 1))))) && brivla (v.drop (p - (j + (i + 1))))) := by
      funext j
      simp only [Function.comp]
      rw [show j.succ + i = j + (i + 1) by omega]
    rw [hfun, ih, Nat.zero_add, rs_at_ne hlt, hb (p - i) (by omega) (by omega)]
    simp only [ok_bind]
    cases (isConsonant v[p - i] || isGlide (v.drop (p - i))) <;> cases brivla (v.drop (p - i)) <;> simp

theorem rs_check_post {acc brivla : Str → Bool} {slin : Str → Except RsErr Bool} {mz ex : Bool} {y : YHyphens} {v : Str} {st : ZState}
    (hst : zihScan mz v (v.length + 1) v {} = .ok st) (hrs : rsZihScan acc mz v (v.length + 1) v {} = .ok st)
    (hb : ∀ p, st.clusterPos = some p → p < v.length ∧
      ∀ q, 0 < q → q ≤ p → isBrivlaR (program .linked) { yHyphens := y } (v.drop q) = .ok (brivla (v.drop q)))
    (hs : ∃ b, (program .linked).slinkuhi y mz v = .ok b ∧ slin v = .ok b) :
    SameCheck (checkZihevlaOrRafsi (program .linked) true y ex mz v) (rsCheck acc brivla slin ex mz true v) := by
  unfold checkZihevlaOrRafsi rsCheck
  by_cases hl : v.length < 4
  · rw [if_pos ⟨rfl, hl⟩, if_pos (by simp [hl])]
    exact .inr ⟨rfl, rfl⟩
  rw [if_neg (fun k => hl k.2), if_neg (by simp only [Bool.true_and, decide_eq_true_eq]; exact hl), hst, hrs, ok_bind]
  dsimp only
  by_cases hn : st.numSyllables < 2
  · rw [if_pos ⟨hn, .inl rfl⟩, if_pos (show ((decide (st.numSyllables < 2) && (true || !ex)) = true) by simp [hn])]
    exact .inr ⟨rfl, rfl⟩
  rw [if_neg (fun k => hn k.1), if_neg (show ¬ ((decide (st.numSyllables < 2) && (true || !ex)) = true) by
    simp only [Bool.and_eq_true, decide_eq_true_eq]; exact fun k => hn k.1)]
  obtain ⟨a, b, t, e⟩ : ∃ a b t, v = a :: b :: t := by
    match v, hl with
    | a :: b :: t, _ => exact ⟨a, b, t, rfl⟩
    | [], h => simp at h
    | [_], h => simp at h
  obtain ⟨sl, hs1, hs2⟩ := hs
  have hi0 : idx v 0 = .ok a := by rw [e]; rfl
  have hi1 : idx v 1 = .ok b := by rw [e]; rfl
  have ha0 : rsAt v 0 = a := by rw [e]; rfl
  have ha1 : rsAt v 1 = b := by rw [e]; rfl
  cases hc : st.clusterPos with
  | none => exact .inr ⟨rfl, rfl⟩
  | some p =>
    obtain ⟨hp, hb⟩ := hb p hc
    have hfin : SameCheck (do
        let c ← idx v 0
        let skip ← (if isVowel c then do
            let d ← idx v 1
            Except.ok (isConsonant d)
          else Except.ok false)
        if !skip then
          if ← (program .linked).slinkuhi y mz v then .error .notZihevla else .ok .zihevla
        else .ok .zihevla) (if !(rsIsVowel (rsAt v 0) && rsIsConsonant (rsAt v 1)) then
            match slin v with
            | .error e => .error e
            | .ok true => .error .notZihevla
            | .ok false => .ok .zihevla
          else .ok .zihevla) := by
      rw [hi0, hi1, ha0, ha1, hs1, hs2, rsIsVowel_eq, rsIsConsonant_eq]
      simp only [ok_bind]
      cases isVowel a <;> cases isConsonant b <;> cases sl <;> first
        | exact .inl ⟨_, rfl, rfl⟩
        | exact .inr ⟨rfl, rfl⟩
    dsimp only
    by_cases hq : st.numSyllables > 2 ∧ p > 0
    · rw [if_pos hq, hb p hq.2 (Nat.le_refl _), rs_falls hp hb (p - 1) 1 (by omega) (by omega)]
      have hf : rsFallsBefore brivla v p = (List.range (p - 1)).any (fun j => (isConsonant (rsAt v (p - (j + 1))) || isGlide (v.drop (p - (j + 1)))) && brivla (v.drop (p - (j + 1)))) := by
        unfold rsFallsBefore
        simp only [rsIsConsonant_eq, rsIsGlide_eq]
      rw [hf]
      simp only [ok_bind, hq.1, hq.2, decide_true, Bool.true_and]
      cases brivla (v.drop p) with
      | true => exact .inr ⟨rfl, rfl⟩
      | false =>
        cases (List.range (p - 1)).any (fun j => (isConsonant (rsAt v (p - (j + 1))) || isGlide (v.drop (p - (j + 1)))) && brivla (v.drop (p - (j + 1)))) with
        | true => exact .inr ⟨rfl, rfl⟩
        | false => exact hfin
    · rw [if_neg hq, if_neg (by simp only [Bool.and_eq_true, decide_eq_true_eq]; exact fun k => hq k.1)]
      exact hfin

theorem late_drop {v : Str} {p q : Nat} (hf : FirstAt v p) (hn : ((v.take p).filter (fun c => Consonant c)).length ≤ 1) (hq : q ≤ p) :
    ¬ LateCluster (v.drop q) := by
  rintro ⟨u, a, b, t, e, ha, hb, h2, hadj⟩
  obtain ⟨⟨c, d, hc, hd, hcc, hdc⟩, -⟩ := hf
  have hc' : (v.drop q)[p - q]? = some c := by rw [List.getElem?_drop, show q + (p - q) = p by omega]; exact hc
  have hd' : (v.drop q)[p - q + 1]? = some d := by rw [List.getElem?_drop, show q + (p - q + 1) = p + 1 by omega]; exact hd
  rcases Nat.lt_or_ge (p - q) u.length with h | h
  · have e2 : v.drop q = (u ++ [a]) ++ b :: t := by rw [e]; simp
    rw [e2, List.getElem?_append_left (by simp; omega)] at hc' hd'
    refine hadj c d ⟨(u ++ [a]).take (p - q), (u ++ [a]).drop (p - q + 2), ?_⟩ ⟨hcc, hdc⟩
    obtain ⟨k1, rfl⟩ := List.getElem?_eq_some_iff.1 hc'
    obtain ⟨k2, rfl⟩ := List.getElem?_eq_some_iff.1 hd'
    conv => lhs; rw [← List.take_append_drop (p - q) (u ++ [a]), List.drop_eq_getElem_cons k1, List.drop_eq_getElem_cons k2]
  · have : v.take p = v.take q ++ (u ++ (a :: b :: t).take (p - q - u.length)) := by
      rw [show p = q + (p - q) by omega, List.take_add, e, List.take_append, List.take_of_length_le h]
      simp
    rw [this] at hn
    simp only [List.filter_append, List.length_append] at hn
    omega

end Jvotci
