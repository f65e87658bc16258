import Verif.Lemmas.Err

/-!
# Helper lemmas: the search over at least two components raises nothing
-/

namespace Jvotci

open Spec

/-- There is a letter besides the hyphen letters. -/
def Firm (w : Str) : Prop := ∃ c ∈ w, isHyphenLetter c = false

theorem Firm.append {u v : Str} (h : Firm u) : Firm (u ++ v) := by
  obtain ⟨c, hc, h⟩ := h
  exact ⟨c, List.mem_append_left _ hc, h⟩

theorem Firm.ne {w : Str} (h : Firm w) : w ≠ [] := by
  obtain ⟨c, hc, -⟩ := h
  rintro rfl; cases hc

theorem dropWhile_cons {α : Type} {p : α → Bool} {l : List α} (h : ∃ c ∈ l, p c = false) : ∃ a t, l.dropWhile p = a :: t := by
  induction l with
  | nil => obtain ⟨c, hc, -⟩ := h; cases hc
  | cons x l ih =>
    rw [List.dropWhile_cons]
    split
    · rename_i hx
      obtain ⟨c, hc, h⟩ := h
      rcases List.mem_cons.1 hc with rfl | hc
      · rw [hx] at h; cases h
      · exact ih ⟨c, hc, h⟩
    · exact ⟨_, _, rfl⟩

theorem total_newConsonants {o : CombineOpts} {l r h : Str} {n : Nat} (hl : Firm l) (hr : Firm r) :
    Errs [] (newConsonants o l r h n) := by
  unfold newConsonants
  refine .ite (fun _ => .ok) fun _ => .ite (fun _ => .ite (fun _ => ?_) fun _ => .ok) fun _ => .ok
  obtain ⟨a, t, h1⟩ := dropWhile_cons (l := l.reverse) (p := isHyphenLetter) (by
    obtain ⟨c, hc, h⟩ := hl; exact ⟨c, by simpa using hc, h⟩)
  obtain ⟨a', t', h2⟩ := dropWhile_cons (l := r) (p := (· == '\'')) (by
    obtain ⟨c, hc, h⟩ := hr
    refine ⟨c, hc, ?_⟩
    simp [isHyphenLetter] at h
    simpa using h.1)
  rw [h1, h2]
  exact .ite (fun _ => .ok) fun _ => .ok

theorem total_combine {o : CombineOpts} {l r : Str} {lc rc : Nat} {sc : Int} {il : List (Nat × Nat)} {t : Tos}
    (hl : Firm l) (hr : Firm r) (hi : il ≠ []) : Errs [] (combine o l r lc rc sc il t) ∧
    ∀ c, combine o l r lc rc sc il t = .ok (some c) → Firm c.lujvo ∧ c.indices ≠ [] := by
  unfold combine
  cases h1 : l.getLast? with
  | none => simp at h1; exact absurd h1 hl.ne
  | some a =>
  cases h2 : r.head? with
  | none => simp at h2; exact absurd h2 hr.ne
  | some b =>
  cases h3 : il.getLast? with
  | none => simp at h3; exact absurd h3 hi
  | some d =>
    dsimp only
    constructor
    · refine .ite (fun _ => .ok) fun _ => .ite (fun _ => .ok) fun _ => .ite (fun _ => .ok) fun _ =>
        .ite (fun _ => .ok) fun _ => .ite (fun _ => .ok) fun _ => ?_
      split
      · exact .ok
      · split
        · exact .ok
        · exact .bind (total_newConsonants hl hr) fun _ _ => .ok
    · intro c h
      split at h
      · cases h
      split at h
      · cases h
      split at h
      · cases h
      split at h
      · cases h
      split at h
      · cases h
      split at h
      · cases h
      split at h
      · cases h
      · obtain ⟨n, -, h⟩ := bind_ok h
        cases h
        refine ⟨?_, by simp⟩
        dsimp only
        rw [List.append_assoc]
        exact hl.append

/-- All words in the table have letters and indices. -/
def SolidBest (b : Best) : Prop := ∀ e ∈ b, Firm e.2.1 ∧ e.2.2.2 ≠ []

theorem solidBest_insert {key : Tos × Nat × Char} {val : Str × Int × List (Nat × Nat)} (hv : Firm val.1 ∧ val.2.2 ≠ []) :
    ∀ {b : Best}, SolidBest b → SolidBest (bestInsert key val b) := by
  intro b
  induction b with
  | nil =>
    intro _ e he
    simp [bestInsert] at he
    subst he
    exact hv
  | cons e' b ih =>
    intro h e he
    have ih := ih (fun e he => h e (List.mem_cons_of_mem _ he))
    unfold bestInsert at he
    split at he
    · split at he
      · rcases List.mem_cons.1 he with rfl | he
        · exact hv
        · exact h e (List.mem_cons_of_mem _ he)
      · exact h e he
    · rcases List.mem_cons.1 he with rfl | he
      · exact h e (by simp)
      · exact ih e he

/-- A step that keeps `P` and raises nothing. -/
def Keeps {β : Type} (P : β → Prop) (x : Except Err β) : Prop := ∃ b, x = .ok b ∧ P b

theorem keeps_foldlM {α β : Type} {P : β → Prop} {f : β → α → Except Err β} : ∀ (l : List α),
    (∀ b, ∀ a ∈ l, P b → Keeps P (f b a)) → ∀ (b : β), P b → Keeps P (l.foldlM f b) := by
  intro l
  induction l with
  | nil => intro _ b hb; exact ⟨b, rfl, hb⟩
  | cons a l ih =>
    intro h b hb
    rw [List.foldlM_cons]
    obtain ⟨b', e, hb'⟩ := h b a (by simp) hb
    rw [e]
    exact ih (fun b a ha => h b a (List.mem_cons_of_mem _ ha)) b' hb'

theorem keeps_step {o : CombineOpts} {l r : Str} {lc rc : Nat} {sc : Int} {il : List (Nat × Nat)} {t : Tos}
    (hl : Firm l) (hr : Firm r) (hi : il ≠ []) {b : Best} (hb : SolidBest b) :
    Keeps SolidBest (do let c ← combine o l r lc rc sc il t; updateCurrentBest c b) := by
  obtain ⟨h1, h2⟩ := total_combine (o := o) (lc := lc) (rc := rc) (sc := sc) (t := t) hl hr hi
  cases hc : combine o l r lc rc sc il t with
  | error e => exact absurd (h1 e hc) (by simp)
  | ok c =>
    cases c with
    | none => exact ⟨b, rfl, hb⟩
    | some c =>
      have h3 := h2 c hc
      cases hgl : c.lujvo.getLast? with
      | none => simp at hgl; exact absurd hgl h3.1.ne
      | some d =>
        refine ⟨bestInsert (c.tos, c.consonants, d) (c.lujvo, c.score, c.indices) b, ?_, solidBest_insert h3 hb⟩
        simp [updateCurrentBest, idxLast, hgl, bind, Except.bind]

theorem bucket_solid {b : Best} (hb : SolidBest b) {t : Tos} {n : Nat} : ∀ e ∈ bucket b t n, Firm e.2.1 ∧ e.2.2.2 ≠ [] := by
  intro e he
  unfold bucket at he
  rw [List.mem_filterMap] at he
  obtain ⟨e', he', h⟩ := he
  split at h
  · cases h
    exact hb e' he'
  · cases h

theorem total_searchStages {o : CombineOpts} {ll : List (List RafsiOpt)} (h2 : 2 ≤ ll.length)
    (h : ∀ l ∈ ll, ∀ r ∈ l, Firm r.1) : ∃ b, searchStages o ll = .ok b := by
  match ll, h2, h with
  | l0 :: l1 :: rest, _, h =>
    unfold searchStages
    have h0 := h l0 (by simp)
    have h1 := h l1 (by simp)
    have hf : Keeps SolidBest (firstStage { o with tanruLen := (l0 :: l1 :: rest).length } l0 l1) := by
      unfold firstStage
      refine keeps_foldlM _ (fun b r0 hr0 hb => keeps_foldlM _ (fun b r1 hr1 hb => ?_) b hb) [] (by intro e he; cases he)
      exact keeps_step (h0 r0 hr0) (h1 r1 hr1) (by simp) hb
    obtain ⟨b, e, hb⟩ := hf
    dsimp only
    rw [e]
    have : Keeps SolidBest (rest.foldlM (fun b l => nextStage { o with tanruLen := 0 } b l) b) := by
      refine keeps_foldlM _ (fun b l hl hb => ?_) b hb
      unfold nextStage
      refine keeps_foldlM _ (fun b' r hr hb' => keeps_foldlM _ (fun b' t _ hb' => keeps_foldlM _ (fun b' n _ hb' =>
        keeps_foldlM _ (fun b' e he hb' => ?_) b' hb') b' hb') b' hb') [] (by intro e he; cases he)
      have := bucket_solid hb e he
      exact keeps_step this.1 (h l (by simp [hl]) r hr) this.2 hb'
    obtain ⟨b', e', -⟩ := this
    exact ⟨b', e'⟩

end Jvotci
