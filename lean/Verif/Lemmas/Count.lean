import Verif.Count
import Verif.Lemmas.Optimal
import Verif.Lemmas.Slots

/-!
# Helper lemmas: counting the calls of `combine`
-/

namespace Jvotci

open Spec

/-- `x` computes `y` with at most `k` calls. -/
def Costs {α : Type} (x : Counted α) (y : Except Err α) (k : Nat) : Prop := ∀ n, ∃ m, x n = (y, m) ∧ m ≤ n + k

theorem costs_uncounted {α : Type} (x : Except Err α) : Costs (uncounted x) x 0 := fun n => ⟨n, rfl, by omega⟩

theorem costs_pure {α : Type} (a : α) : Costs (pure a) (.ok a) 0 := fun n => ⟨n, rfl, by omega⟩

theorem costs_mono {α : Type} {x : Counted α} {y : Except Err α} {k k' : Nat} (h : Costs x y k) (hk : k ≤ k') : Costs x y k' := by
  intro n
  obtain ⟨m, h1, h2⟩ := h n
  exact ⟨m, h1, by omega⟩

theorem costs_bind {α β : Type} {x : Counted α} {y : Except Err α} {f : α → Counted β} {g : α → Except Err β} {k k' : Nat}
    (h : Costs x y k) (hf : ∀ a, y = .ok a → Costs (f a) (g a) k') : Costs (x >>= f) (y >>= g) (k + k') := by
  intro n
  obtain ⟨m, h1, h2⟩ := h n
  have e : (x >>= f) n = (ExceptT.bindCont f (x n).1) (x n).2 := rfl
  rw [e, h1]
  cases y with
  | error e => exact ⟨m, rfl, by omega⟩
  | ok a =>
    obtain ⟨m', g1, g2⟩ := hf a rfl m
    exact ⟨m', by rw [ok_bind]; exact g1, by omega⟩

theorem costs_fold {α β : Type} {f : β → α → Counted β} {g : β → α → Except Err β} (P : β → Prop) (k : α → Nat) : ∀ {l : List α} {b : β}, P b →
    (∀ a ∈ l, ∀ b, P b → Costs (f b a) (g b a) (k a) ∧ ∀ b', g b a = .ok b' → P b') → Costs (l.foldlM f b) (l.foldlM g b) (l.map k).sum := by
  intro l
  induction l with
  | nil => intro b _ _; exact costs_pure b
  | cons a l ih =>
    intro b hb h
    rw [List.foldlM_cons, List.foldlM_cons, List.map_cons, List.sum_cons]
    exact costs_bind (h a (by simp) b hb).1 fun b' hb' => ih ((h a (by simp) b hb).2 b' hb') fun c hc => h c (by simp [hc])

/-! ## How many entries a table has -/

theorem nodup_le_of_subset {α : Type} [DecidableEq α] : ∀ {l l' : List α}, l.Nodup → (∀ a ∈ l, a ∈ l') → l.length ≤ l'.length := by
  intro l
  induction l with
  | nil => intro l' _ _; simp
  | cons a l ih =>
    intro l' hn hs
    rw [List.nodup_cons] at hn
    have ha := hs a (by simp)
    have := ih (l' := l'.erase a) hn.2 (fun b hb => (List.mem_erase_of_ne (by rintro rfl; exact hn.1 hb)).2 (hs b (by simp [hb])))
    rw [List.length_erase_of_mem ha] at this
    have := List.length_pos_of_mem ha
    simp only [List.length_cons]
    omega

/-- The keys of a table are different and among those of the rafsi `l`. -/
structure Narrow (l : List RafsiOpt) (b : Best) : Prop where
  nodup : (b.map Prod.fst).Nodup
  keys : ∀ e ∈ b, e.1.2.1 ≤ 2 ∧ ∃ r ∈ l, r.1.getLast? = some e.1.2.2

theorem narrow_nil (l : List RafsiOpt) : Narrow l [] := ⟨by simp, by simp⟩

theorem narrow_length {l : List RafsiOpt} {b : Best} (h : Narrow l b) : b.length ≤ 9 * l.length := by
  have := nodup_le_of_subset (l' := l.flatMap (fun r => [Tos.tosynone, .tosmabru, .tosyhuhu].flatMap fun t => [0, 1, 2].map fun n => (t, n, (r.1.getLast?).getD 'a')))
    h.nodup (by
      intro k hk
      obtain ⟨e, he, rfl⟩ := List.mem_map.1 hk
      obtain ⟨h1, r, hr, h2⟩ := h.keys e he
      obtain ⟨⟨t, n, c⟩, v⟩ := e
      simp only [List.mem_flatMap, List.mem_map]
      refine ⟨r, hr, t, by cases t <;> simp, n, ?_, by rw [h2]; rfl⟩
      dsimp only at h1
      have : n = 0 ∨ n = 1 ∨ n = 2 := by omega
      rcases this with rfl | rfl | rfl <;> simp)
  rw [List.length_map] at this
  refine Nat.le_trans this ?_
  clear this h
  induction l with
  | nil => simp
  | cons r l ih => simp only [List.flatMap_cons, List.length_append, List.length_cons] at ih ⊢; simp at ih ⊢; omega

theorem bestInsert_keys {k : Tos × Nat × Char} {v : Str × Int × List (Nat × Nat)} {b : Best} :
    (bestInsert k v b).map Prod.fst = if k ∈ b.map Prod.fst then b.map Prod.fst else b.map Prod.fst ++ [k] := by
  induction b with
  | nil => simp [bestInsert]
  | cons e b ih =>
    unfold bestInsert
    by_cases h : e.1 = k
    · rw [if_pos h]
      subst h
      split <;> simp
    · rw [if_neg h, List.map_cons, ih]
      by_cases h' : k ∈ b.map Prod.fst
      · rw [if_pos h', if_pos (by simp only [List.map_cons, List.mem_cons]; exact .inr h')]; rfl
      · rw [if_neg h', if_neg (by
          simp only [List.map_cons, List.mem_cons]
          rintro (h1 | h1)
          · exact h h1.symm
          · exact h' h1)]
        rfl

theorem narrow_insert {l : List RafsiOpt} {b : Best} {k : Tos × Nat × Char} {v : Str × Int × List (Nat × Nat)} (h : Narrow l b) (hk : k.2.1 ≤ 2)
    (hr : ∃ r ∈ l, r.1.getLast? = some k.2.2) : Narrow l (bestInsert k v b) := by
  have hkeys := bestInsert_keys (k := k) (v := v) (b := b)
  refine ⟨?_, fun e he => ?_⟩
  · rw [hkeys]
    split
    · exact h.nodup
    · rename_i hn
      rw [List.nodup_append]
      exact ⟨h.nodup, by simp, fun a ha c hc => by simp at hc; subst hc; rintro rfl; exact hn ha⟩
  · have : e.1 ∈ (bestInsert k v b).map Prod.fst := List.mem_map_of_mem he
    rw [hkeys] at this
    have : e.1 ∈ b.map Prod.fst ∨ e.1 = k := by
      split at this
      · exact .inl this
      · simpa using this
    rcases this with h1 | h1
    · obtain ⟨e', he', h2⟩ := List.mem_map.1 h1
      rw [← h2]
      exact h.keys e' he'
    · rw [h1]; exact ⟨hk, hr⟩

theorem narrow_update {o : CombineOpts} {lujvo : Str} {r : RafsiOpt} {lc : Nat} {sc : Int} {il : List (Nat × Nat)} {tos : Tos} {c : Option Cand}
    {l : List RafsiOpt} {b b' : Best} (hc : combine o lujvo r.1 lc r.2 sc il tos = .ok c) (hr : r ∈ l) (h : Narrow l b)
    (hu : updateCurrentBest c b = .ok b') : Narrow l b' := by
  cases c with
  | none => cases hu; exact h
  | some c =>
    obtain ⟨last, first, hyphen, new, h1, h2, h3, h4, h5, h6, h7, h8, h9, h10, h11, h12, h13⟩ := combine_some hc
    unfold updateCurrentBest at hu
    obtain ⟨d, hd, hu⟩ := bind_ok hu
    cases hu
    refine narrow_insert h ?_ ⟨r, hr, ?_⟩
    · dsimp only
      rw [h11]
      unfold totalConsonants
      split <;> omega
    · rw [← idxLast_ok hd, h13.1]
      have : r.1 ≠ [] := by intro e; rw [e] at h2; cases h2
      rw [getLast?_append_ne _ this]

theorem bucket_sum (b : Best) :
    (([Tos.tosynone, .tosmabru, .tosyhuhu].map fun t => ([0, 1, 2].map fun n => (bucket b t n).length).sum).sum) ≤ b.length := by
  induction b with
  | nil => decide
  | cons e b ih =>
    obtain ⟨⟨t, n, c⟩, v⟩ := e
    simp only [bucket, List.map_cons, List.map_nil, List.sum_cons, List.sum_nil, List.filterMap_cons, List.length_cons] at ih ⊢
    have : n = 0 ∨ n = 1 ∨ n = 2 ∨ 3 ≤ n := by omega
    rcases this with rfl | rfl | rfl | h
    · cases t <;> simp at ih ⊢ <;> omega
    · cases t <;> simp at ih ⊢ <;> omega
    · cases t <;> simp at ih ⊢ <;> omega
    · have h0 : n ≠ 0 := by omega
      have h1 : n ≠ 1 := by omega
      have h2 : n ≠ 2 := by omega
      cases t <;> simp [h0, h1, h2] at ih ⊢ <;> omega

/-! ## The stages -/

theorem costs_combine {o : CombineOpts} {lujvo : Str} {r : RafsiOpt} {lc : Nat} {sc : Int} {il : List (Nat × Nat)} {tos : Tos} {b : Best} :
    Costs (do let c ← combineC o lujvo r.1 lc r.2 sc il tos; uncounted (updateCurrentBest c b))
      (do let c ← combine o lujvo r.1 lc r.2 sc il tos; updateCurrentBest c b) 1 :=
  costs_bind (k := 1) (k' := 0) (fun n => ⟨n + 1, rfl, Nat.le_refl _⟩) fun _ _ => costs_uncounted _

theorem sum_const {α : Type} (k : Nat) : ∀ l : List α, (l.map fun _ => k).sum = l.length * k := by
  intro l
  induction l with
  | nil => simp
  | cons a l ih => rw [List.map_cons, List.sum_cons, ih, List.length_cons, Nat.succ_mul]; omega

theorem fold_narrow {α : Type} {l : List RafsiOpt} {g : Best → α → Except Err Best} : ∀ {xs : List α} {b b' : Best}, Narrow l b →
    (∀ a ∈ xs, ∀ b, Narrow l b → ∀ b', g b a = .ok b' → Narrow l b') → xs.foldlM g b = .ok b' → Narrow l b' := by
  intro xs
  induction xs with
  | nil => intro b b' hb _ h; cases h; exact hb
  | cons a xs ih =>
    intro b b' hb hg h
    rw [List.foldlM_cons] at h
    obtain ⟨b1, h1, h⟩ := bind_ok h
    exact ih (hg a (by simp) b hb b1 h1) (fun c hc => hg c (by simp [hc])) h

theorem costs_first {o : CombineOpts} {l0 l1 : List RafsiOpt} :
    Costs (firstStageC o l0 l1) (firstStage o l0 l1) (l0.length * l1.length) ∧ ∀ b, firstStage o l0 l1 = .ok b → Narrow l1 b := by
  constructor
  · unfold firstStageC firstStage
    rw [← sum_const]
    refine costs_fold (fun _ => True) (fun _ => l1.length) trivial fun r0 _ b _ => ⟨?_, fun _ _ => trivial⟩
    rw [← Nat.mul_one l1.length, ← sum_const]
    exact costs_fold (fun _ => True) (fun _ => 1) trivial fun r1 _ b _ => ⟨costs_combine, fun _ _ => trivial⟩
  · intro b h
    unfold firstStage at h
    refine fold_narrow (narrow_nil l1) (fun r0 _ b hb b' h' => ?_) h
    refine fold_narrow hb (fun r1 hr1 b hb b' h' => ?_) h'
    obtain ⟨c, hc, h'⟩ := bind_ok h'
    exact narrow_update hc hr1 hb h'

theorem costs_next {o : CombineOpts} {prev : Best} {l : List RafsiOpt} :
    Costs (nextStageC o prev l) (nextStage o prev l) (l.length * prev.length) ∧ ∀ b, nextStage o prev l = .ok b → Narrow l b := by
  constructor
  · unfold nextStageC nextStage
    rw [← sum_const]
    refine costs_fold (fun _ => True) (fun _ => prev.length) trivial fun r _ b _ => ⟨?_, fun _ _ => trivial⟩
    refine costs_mono (costs_fold (fun _ => True) (fun t => ([0, 1, 2].map fun n => (bucket prev t n).length).sum) trivial
      fun t _ b _ => ⟨?_, fun _ _ => trivial⟩) (bucket_sum prev)
    refine costs_fold (fun _ => True) (fun n => (bucket prev t n).length) trivial fun n _ b _ => ⟨?_, fun _ _ => trivial⟩
    rw [← Nat.mul_one (bucket prev t n).length, ← sum_const]
    exact costs_fold (fun _ => True) (fun _ => 1) trivial fun e _ b _ => ⟨costs_combine, fun _ _ => trivial⟩
  · intro b h
    unfold nextStage at h
    refine fold_narrow (narrow_nil l) (fun r hr b hb b' h' => ?_) h
    refine fold_narrow hb (fun t _ b hb b' h' => ?_) h'
    refine fold_narrow hb (fun n _ b hb b' h' => ?_) h'
    refine fold_narrow hb (fun e _ b hb b' h' => ?_) h'
    obtain ⟨c, hc, h'⟩ := bind_ok h'
    exact narrow_update hc hr hb h'

/-- At most `9 M²` calls for each component, when none has more than `M` rafsi. -/
theorem costs_rest {o : CombineOpts} {M : Nat} : ∀ {rest : List (List RafsiOpt)} {l : List RafsiOpt} {b : Best}, Narrow l b → l.length ≤ M →
    (∀ l ∈ rest, l.length ≤ M) → Costs (rest.foldlM (fun b l => nextStageC o b l) b) (rest.foldlM (fun b l => nextStage o b l) b) (9 * M * M * rest.length) := by
  intro rest
  induction rest with
  | nil => intro l b _ _ _; exact costs_pure b
  | cons l' rest ih =>
    intro l b hb hl hr
    rw [List.foldlM_cons, List.foldlM_cons]
    have h1 := narrow_length hb
    have h2 : b.length ≤ 9 * M := by omega
    have h3 := Nat.mul_le_mul (hr l' (by simp)) h2
    refine costs_mono (costs_bind costs_next.1 fun b' hb' => ih (costs_next.2 b' hb') (hr l' (by simp)) fun x hx => hr x (by simp [hx])) ?_
    rw [List.length_cons, Nat.mul_succ, show 9 * M * M = M * (9 * M) by rw [Nat.mul_comm]]
    omega

theorem costs_search {o : CombineOpts} {M : Nat} {ll : List (List RafsiOpt)} (h : ∀ l ∈ ll, l.length ≤ M) :
    Costs (searchStagesC o ll) (searchStages o ll) (9 * M * M * ll.length) := by
  unfold searchStagesC searchStages
  match ll with
  | [] => exact costs_mono (costs_uncounted _) (by omega)
  | [l0] => exact costs_mono (costs_uncounted _) (by omega)
  | l0 :: l1 :: rest =>
    have h0 := h l0 (by simp)
    have h1 := h l1 (by simp)
    refine costs_mono (costs_bind costs_first.1 fun b hb => costs_rest (costs_first.2 b hb) h1 fun x hx => h x (by simp [hx])) ?_
    have h3 := Nat.mul_le_mul h0 h1
    rw [List.length_cons, List.length_cons, Nat.mul_succ, Nat.mul_succ]
    have : M * M ≤ 9 * M * M := Nat.mul_le_mul (by omega) (Nat.le_refl M)
    omega

/-! ## How many rafsi a component has -/

theorem options_le {r : Str} {t : RType} {f l : Bool} {c : Consonants} {g : Bool} {os : List RafsiOpt} (h : getRafsiForRafsi r t f l c g = .ok os) :
    os.length ≤ 2 ∧ (t = .shortBrivla ∨ t = .longBrivla → os.length ≤ 1) := by
  unfold getRafsiForRafsi at h
  obtain ⟨x, -, h⟩ := bind_ok h
  have short : (if !l then Except.ok [(x ++ s%"y", 2)]
      else do
        let l ← idxLast x
        if !isVowel l then Except.ok [(x, 2)] else Except.ok []) = Except.ok os → os.length ≤ 1 := by
    intro h
    split at h
    · cases h; simp
    · obtain ⟨d, -, h⟩ := bind_ok h
      split at h <;> cases h <;> simp
  have long : (if l then Except.ok [(x, 2)] else Except.ok [(x ++ s%"'y", 2)]) = (Except.ok os : Except Err _) → os.length ≤ 1 := by
    intro h
    split at h <;> cases h <;> simp
  split at h
  · have := short h; exact ⟨by omega, fun _ => this⟩
  · have := short h; exact ⟨by omega, fun _ => this⟩
  · have := short h; exact ⟨by omega, fun _ => this⟩
  · have := long h; exact ⟨by omega, fun _ => this⟩
  · have := long h; exact ⟨by omega, fun _ => this⟩
  · have := long h; exact ⟨by omega, fun _ => this⟩
  · refine ⟨?_, by simp⟩
    have fin : ∀ n : Nat, (if l = true then Except.ok [(x, n)]
        else if (!f) = true then Except.ok [(x ++ s%"'y", n)] else Except.ok [(x ++ s%"'", n)]) = (Except.ok os : Except Err _) → os.length ≤ 2 := by
      intro n h
      split at h
      · cases h; simp
      · split at h <;> cases h <;> simp
    dsimp only at h
    split at h
    · obtain ⟨d, -, h⟩ := bind_ok h
      split at h
      · exact fin _ h
      · exact fin _ h
    · exact fin _ h
  · refine ⟨?_, by simp⟩
    dsimp only at h
    split at h
    · cases h; simp
    · split at h <;> cases h <;> simp
  · refine ⟨?_, by simp⟩
    dsimp only at h
    split at h
    · cases h; simp
    · split at h <;> cases h <;> simp
  · refine ⟨?_, by simp⟩
    cases h; simp
  · refine ⟨?_, by simp⟩
    split at h <;> cases h <;> simp
  · cases h
  · cases h

theorem table_le : ∀ e ∈ RAFSI_LIST, e.2.length ≤ 3 := by decide +kernel

theorem tableOptions_le {s : Settings} {f l : Bool} : ∀ {rs : List Str} {os : List RafsiOpt}, rafsiListTable s f l rs = .ok os → os.length ≤ 2 * rs.length := by
  intro rs
  induction rs with
  | nil => intro os h; cases h; simp
  | cons r rs ih =>
    intro os h
    unfold rafsiListTable at h
    split at h
    · have := ih h
      simp only [List.length_cons]; omega
    · obtain ⟨a, ha, h⟩ := bind_ok h
      obtain ⟨b, hb, h⟩ := bind_ok h
      cases h
      have h1 := (options_le ha).1
      have h2 := ih hb
      simp only [List.length_append, List.length_cons]
      omega

/-- A component has at most eight rafsi, counted with the letters that may follow them. -/
theorem component_le {R : Rec} {s : Settings} {f l : Bool} {v : Str} {os : List RafsiOpt} (h : rafsiListFor R s f l v = .ok os) : os.length ≤ 8 := by
  unfold rafsiListFor at h
  obtain ⟨c, -, h⟩ := bind_ok h
  split at h
  · obtain ⟨d, -, h⟩ := bind_ok h
    dsimp only at h
    obtain ⟨-, h⟩ := ite_error_ok h
    obtain ⟨e, -, h⟩ := bind_ok h
    obtain ⟨-, h⟩ := ite_error_ok h
    split at h
    · unfold rafsiListShort at h
      obtain ⟨⟨t, ps⟩, -, h⟩ := bind_ok h
      dsimp only at h
      obtain ⟨-, h⟩ := ite_error_ok h
      obtain ⟨c', -, h⟩ := bind_ok h
      split at h
      · split at h
        · cases h
        · have := (options_le h).1; omega
        · have := (options_le h).1; omega
        · cases h
      · have := (options_le h).1; omega
    · unfold rafsiListRafsi at h
      dsimp only at h
      split at h
      · obtain ⟨t, -, h⟩ := bind_ok h
        have := (options_le h).1; omega
      · obtain ⟨-, h⟩ := ite_error_ok h
        have := (options_le h).1; omega
  · unfold rafsiListWord at h
    obtain ⟨-, h⟩ := ite_error_ok h
    obtain ⟨a, ha, h⟩ := bind_ok h
    obtain ⟨t, -, h⟩ := bind_ok h
    obtain ⟨b, hb, h⟩ := bind_ok h
    obtain ⟨c', hc, h⟩ := bind_ok h
    cases h
    have h1 := tableOptions_le ha
    have h2 : ((RAFSI_LIST.lookup v).getD []).length ≤ 3 := by
      cases hl : RAFSI_LIST.lookup v with
      | none => simp
      | some rs => exact table_le _ (lookup_mem hl)
    have h3 : b.length ≤ 1 := by
      split at hb
      · exact (options_le hb).2 (.inl rfl)
      · cases hb; simp
    have h4 : c'.length ≤ 1 := by
      split at hc
      · exact (options_le hc).2 (.inr rfl)
      · cases hc; simp
    simp only [List.length_append]
    omega

theorem components_le {R : Rec} {s : Settings} {n : Nat} : ∀ {vs : List Str} {i : Nat} {ll : List (List RafsiOpt)},
    rafsiListListFrom R s n i vs = .ok ll → ll.length = vs.length ∧ ∀ l ∈ ll, l.length ≤ 8 := by
  intro vs
  induction vs with
  | nil => intro i ll h; cases h; simp
  | cons v vs ih =>
    intro i ll h
    unfold rafsiListListFrom at h
    obtain ⟨a, ha, h⟩ := bind_ok h
    obtain ⟨b, hb, h⟩ := bind_ok h
    cases h
    obtain ⟨h1, h2⟩ := ih hb
    refine ⟨by simp [h1], fun l hl => ?_⟩
    rcases List.mem_cons.1 hl with rfl | hl
    · exact component_le ha
    · exact h2 l hl

end Jvotci
