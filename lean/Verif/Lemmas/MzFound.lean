import Verif.Lemmas.Looser
import Verif.Props.Mz

/-!
# Helper lemmas: a lujvo of a tanru is one if mz is allowed
-/

namespace Jvotci

open Spec

theorem hasBadPair_true : ∀ {x : Str}, hasBadPair (validPairs false) x = false → hasBadPair (validPairs true) x = false
  | [], _ => rfl
  | [_], _ => rfl
  | a :: b :: x, h => by
    unfold hasBadPair at h ⊢
    simp only [Bool.or_eq_false_iff, Bool.not_eq_false', List.drop_succ_cons, List.drop_zero] at h ⊢
    exact ⟨validPairs_contains.2 (pair_true (validPairs_contains.1 h.1)), hasBadPair_true h.2⟩

theorem zihConsonants_true {x : Str} {st st' : ZState} (h : zihConsonants false x st = .ok st') : zihConsonants true x st = .ok st' := by
  unfold zihConsonants at h ⊢
  dsimp only at h ⊢
  split at h
  · cases h
  rename_i h1
  rw [if_neg h1]
  split at h
  · cases h
  rename_i h2
  rw [if_neg h2]
  split at h
  · cases h
  rename_i h3
  rw [if_neg (by rw [hasBadPair_true (by simpa using h3)]; simp)]
  exact h

theorem two_tests {α : Type} {a b : Bool} {e : Err} {x y : Except Err α} {r : α} (h : x = .ok r → y = .ok r)
    (h' : (if a = true then .error e else if b = true then .error e else x) = .ok r) :
    (if a = true then .error e else if b = true then .error e else y) = .ok r := by
  cases a <;> cases b <;> simp_all

theorem zihScan_true {v : Str} : ∀ {n : Nat} {x : Str} {st st' : ZState}, zihScan false v n x st = .ok st' → zihScan true v n x st = .ok st'
  | 0, _, _, _, h => by cases h
  | n + 1, [], _, _, h => h
  | n + 1, c :: cs, st, st', h => by
    unfold zihScan at h ⊢
    split at h
    · rename_i hc
      rw [if_pos hc]
      obtain ⟨st1, h1, h2⟩ := bind_ok h
      dsimp only
      rw [zihConsonants_true h1, ok_bind]
      exact zihScan_true h2
    · rename_i hc
      rw [if_neg hc]
      split at h
      · rename_i hv
        rw [if_pos hv]
        obtain ⟨st1, h1, h2⟩ := bind_ok h
        dsimp only
        rw [h1, ok_bind]
        exact zihScan_true h2
      · rename_i hv
        rw [if_neg hv]
        split at h
        · rename_i ha
          rw [if_pos ha]
          exact two_tests zihScan_true h
        · cases h

theorem check_rafsi_true {y : YHyphens} {ex : Bool} {x : Str} (h : checkZihevlaOrRafsi (program .linked) false y ex false x = .ok .rafsi) :
    checkZihevlaOrRafsi (program .linked) false y ex true x = .ok .rafsi := by
  unfold checkZihevlaOrRafsi at h ⊢
  split at h
  · cases h
  rename_i h1
  rw [if_neg h1]
  obtain ⟨st, hst, h⟩ := bind_ok h
  rw [zihScan_true hst, ok_bind]
  split at h
  · cases h
  rename_i h2
  rw [if_neg h2]
  cases hc : st.clusterPos with
  | none =>
    rw [hc] at h
    exact h
  | some p =>
    rw [hc] at h
    exfalso
    dsimp only at h
    repeat' split at h
    all_goals first | (cases h; done) | skip
    all_goals
      obtain ⟨_, -, h⟩ := bind_ok h
      obtain ⟨c, -, h⟩ := bind_ok h
      obtain ⟨sk, -, h⟩ := bind_ok h
      split at h
      · obtain ⟨b, -, h⟩ := bind_ok h
        cases b <;> cases h
      · cases h

theorem rafsi_true {mz : Bool} {x : Str} (h : Rafsi mz x) : Rafsi true x := by
  cases h with
  | cvv h1 h2 h3 => exact .cvv h1 h2 h3
  | cvhv h1 h2 h3 => exact .cvhv h1 h2 h3
  | cvc h1 h2 h3 => exact .cvc h1 h2 h3
  | ccv h1 h2 => exact .ccv h1 h2
  | cvcc h1 h2 h3 => exact .cvcc h1 h2 (pair_true h3)
  | ccvc h1 h2 h3 => exact .ccvc h1 h2 h3
  | gismu h =>
    cases h with
    | cvccv h1 h2 h3 h4 => exact .gismu (.cvccv h1 h2 (pair_true h3) h4)
    | ccvcv h1 h2 h3 h4 => exact .gismu (.ccvcv h1 h2 h3 h4)

theorem wordType_mz {s : Settings} {x : Str} {t : BType} (hs : s.allowMz = false) (hlen : x.length < 10 ^ 91) (ht : t = .gismu ∨ t = .zihevla)
    (h : WordType .linked s x t) : WordType .linked { s with allowMz := true } x t := by
  obtain ⟨ps, h⟩ := h
  refine ⟨ps, ?_⟩
  rcases C56_brivla hlen (by exact hs) (by rcases ht with rfl | rfl <;> simp) h with h | ⟨h, -⟩
  · exact h
  · rcases ht with rfl | rfl <;> cases h

/-- There is no mz in a word if it is not allowed. -/
theorem wordType_noMz {s : Settings} {x : Str} {t : BType} (hs : s.allowMz = false) (h : WordType .linked s x t) : NoMz (reading x) := by
  obtain ⟨ps, h⟩ := h
  intro ha
  have := (C07_consonant_pairs h ha (by decide) (by decide)).2.2.2.2.2.2.2 rfl
  simp only at this
  rw [hs] at this
  cases this

theorem cut_noMz {s : Settings} {x : Str} (hs : s.allowMz = false) (hl : ∀ c ∈ x, Vowel c ∨ Consonant c ∨ c = '\'')
    (h : WordType .linked s (x ++ s%"a") .gismu ∨ WordType .linked s (x ++ s%"a") .zihevla) : NoMz x := by
  have key : NoMz (reading (x ++ s%"a")) := by
    rcases h with h | h
    · exact wordType_noMz hs h
    · exact wordType_noMz hs h
  rw [reading_letters] at key
  · exact noMz_mid (u := []) (v := s%"a") (by simpa using key)
  · intro c hc
    rcases List.mem_append.1 hc with hc | hc
    · exact hl c hc
    · simp at hc; subst hc; exact .inl (by decide)

theorem usable_mz {s : Settings} {v x : Str} {k : Kind} (hs : s.allowMz = false) (hv : Spelled v) (hlen : v.length < 10 ^ 90)
    (h : Usable .linked s v x k) : Usable .linked { s with allowMz := true } v x k := by
  obtain ⟨y, i, j, e, -, hlet, hij, hq⟩ := hv
  have hnd := letters_no_dash hlet
  have hst : stripBoth (· == '-') v = y := by rw [e]; exact strip_dashes hnd i j
  have hyl : y.length ≤ v.length := by rw [e]; simp; omega
  have hdash : ∀ {x : Str}, Dashed v x → x = y := by
    rintro x ⟨h1, i', j', e'⟩
    rw [← hst, e']; exact (strip_dashes h1 _ _).symm
  cases h with
  | listed h1 h2 h3 h4 => exact .listed h1 h2 h3 h4
  | stem h1 h2 h3 => exact .stem h1 (wordType_mz hs (by omega) (by simp) h2) h3
  | word h1 h2 =>
    exact .word h1 (h2.imp (wordType_mz hs (by omega) (by simp)) (wordType_mz hs (by omega) (by simp)))
  | rafsi h1 h2 h3 => exact .rafsi h1 (rafsi_true h2) h3
  | zihevla h1 h2 h3 =>
    cases hdash h1
    exact .zihevla h1 h2 (wordType_mz hs (by omega) (by simp) h3)
  | experimental h1 h2 h3 h4 h5 =>
    cases hdash h1
    rw [hs] at h5
    exact .experimental h1 h2 h3 (fun t => experimental_no_word hlet h5) (check_rafsi_true h5)
  | cut h1 h2 h3 h4 =>
    rename_i j'
    have : x = y := by
      rw [← hst, h1]
      have := strip_dashes h2 0 (j' + 1)
      simpa using this.symm
    subst this
    have hl' : (x ++ s%"a").length < 10 ^ 91 := by simp; omega
    refine .cut h1 h2 (h3.imp (wordType_mz hs hl' (by simp)) (wordType_mz hs hl' (by simp))) ?_
    intro h5 h6 ps
    rw [jvokaha2_mz (mz' := s.allowMz) (cut_noMz hs hlet h3)]
    exact h4 h5 h6 ps

theorem represents_mz {s : Settings} {n : Nat} (hs : s.allowMz = false) : ∀ {vs : List Str} {i : Nat} {zs : List Slot},
    (∀ v ∈ vs, Spelled v ∧ v.length < 10 ^ 90) → Represents .linked s n i vs zs → Represents .linked { s with allowMz := true } n i vs zs
  | _, _, _, _, .nil => .nil
  | _, _, _, hv, .cons hu hw h =>
    .cons (usable_mz hs (hv _ (by simp)).1 (hv _ (by simp)).2 hu) hw
      (represents_mz hs (fun v hm => hv v (List.mem_cons_of_mem _ hm)) h)

theorem lujvoOf_mz {s : Settings} {g : Bool} {vs : List Str} {w : Str} {sc : Int} (hs : s.allowMz = false)
    (hv : ∀ v ∈ vs, Spelled v ∧ v.length < 10 ^ 90) (h : LujvoOf .linked s g vs w sc) : LujvoOf .linked { s with allowMz := true } g vs w sc := by
  obtain ⟨zs, hy, h1, h2, h3, h4⟩ := h
  refine ⟨zs, hy, represents_mz hs hv h1, ⟨h2.first, ?_, h2.tosmabru, h2.tosyhuhu, h2.consonants, h2.ends⟩, h3, h4⟩
  intro y z hb
  have := h2.joints y z hb
  exact ⟨fun a b h3 h4 h5 h6 => pair_true (this.pair a b h3 h4 h5 h6), this.triple, this.hyphen⟩

theorem represents_each {b : Build} {s : Settings} {n i : Nat} {vs : List Str} {zs : List Slot} (h : Represents b s n i vs zs) :
    ∀ v ∈ vs, ∃ x k, Usable b s v x k := by
  induction h with
  | nil => simp
  | cons hu _ _ ih =>
    intro v hv
    rcases List.mem_cons.1 hv with rfl | hv
    · exact ⟨_, _, hu⟩
    · exact ih v hv

theorem past_mz {s : Settings} {v x : Str} {k : Kind} (hs : s.allowMz = false) (hu : Usable .linked s v x k)
    (h : Past { s with allowMz := true } v) : Past s v := by
  obtain ⟨y, j, e, hl, h1, h2, h3, h4⟩ := h
  have hnd := letters_no_dash h1
  have hlast : v.getLast? = some '-' := by rw [e, List.getLast?_append]; simp [List.replicate_succ']
  have hdash : ∀ {x : Str}, ¬ Dashed v x := by
    rintro x ⟨h1, i', j', e'⟩
    have hne : y ≠ [] := by rintro rfl; simp at h2
    obtain ⟨c, t, rfl⟩ := List.exists_cons_of_ne_nil hne
    rw [e] at e'
    simp [List.replicate_succ] at e'
    exact hnd (by simp [e'.1])
  refine ⟨y, j, e, hl, h1, h2, h3, ?_⟩
  cases hu with
  | listed h => exact absurd hlast h
  | stem h => exact absurd hlast h
  | word h => exact absurd hlast h
  | rafsi h => exact absurd h hdash
  | zihevla h => exact absurd h hdash
  | experimental h => exact absurd h hdash
  | cut h5 h6 h7 h8 =>
    rename_i j'
    have : x = y := by
      have a := strip_dashes h6 0 (j' + 1)
      have b := strip_dashes hnd 0 (j + 1)
      simp only [List.replicate_zero, List.nil_append] at a b
      rw [← a, ← b, ← h5, ← e]
    subst this
    rw [← h4, jvokaha2_mz (mz' := true) (cut_noMz hs h1 h7)]

/-- Allowing mz does not make the best score worse. -/
theorem mz_found {s : Settings} {g : Bool} {vs : List Str} {r : Str × Int × List (Nat × Nat)} (hs : s.allowMz = false)
    (hv : ∀ v ∈ vs, Spelled v ∧ v.length < 10 ^ 90) (h : getLujvoFromList (program .linked) s g vs = .ok r) (hlt : r.2.1 < 10 ^ 100) :
    LujvoOf .linked { s with allowMz := true } g vs r.1 r.2.1 ∧
    ((∃ r', getLujvoFromList (program .linked) { s with allowMz := true } g vs = .ok r' ∧ r'.2.1 ≤ r.2.1) ∨
    (g = false ∧ getLujvoFromList (program .linked) { s with allowMz := true } g vs = .error .noLujvo ∧
      ∃ w sc, LujvoOf .linked { s with allowMz := true } g vs w sc ∧ (∀ w' sc', LujvoOf .linked { s with allowMz := true } g vs w' sc' → sc ≤ sc') ∧
        (program .linked).slinkuhi s.yHyphens true w = .ok true)) := by
  have hl0 := (getLujvoFromList_best.1 r h).1
  have hl := lujvoOf_mz hs hv hl0
  refine ⟨hl, ?_⟩
  rcases search_found (fun v hm => (hv v hm).1) hl hlt with ⟨r', h'⟩ | h' | ⟨-, -, v, hvm, hp⟩
  · exact .inl ⟨r', h', (getLujvoFromList_best.1 r' h').2 _ _ hl⟩
  · exact .inr h'
  · exfalso
    obtain ⟨zs, hy, hrep, -⟩ := hl0
    obtain ⟨x, k, hu⟩ := represents_each hrep v hvm
    unfold getLujvoFromList at h
    obtain ⟨ll, hll, -⟩ := bind_ok h
    exact past_list hvm (past_mz hs hu hp) hll

end Jvotci
