import Verif.Lemmas.Normalise

/-!
# Helper lemmas: two runs of the program, one of which may stop with a given error

`Rel bad x x'` says that `x` either stopped with the error `bad` or gave the same result as `x'`.  For
`bad = fuel` this compares two recursion budgets, for `bad = name` the programs `pinned` and `linked`: in
neither case does any function of the package catch the error.
-/

namespace Jvotci

open Spec

def Rel {α : Type} (bad : Err) (x x' : Except Err α) : Prop := x = .error bad ∨ x = x'

theorem Rel.same {α : Type} {bad : Err} {x : Except Err α} : Rel bad x x := .inr rfl

theorem Rel.bind {α β : Type} {bad : Err} {x x' : Except Err α} {f f' : α → Except Err β}
    (h : Rel bad x x') (hf : ∀ a, Rel bad (f a) (f' a)) : Rel bad (x >>= f) (x' >>= f') := by
  rcases h with h | h
  · left; rw [h]; rfl
  · subst h
    cases x with
    | error e => exact Rel.same
    | ok a => exact hf a

theorem Rel.ite {α : Type} {bad : Err} {p : Prop} [Decidable p] {x x' y y' : Except Err α}
    (h1 : Rel bad x x') (h2 : Rel bad y y') : Rel bad (if p then x else y) (if p then x' else y') := by
  split
  · exact h1
  · exact h2

/-- The errors that pass through every handler. -/
def Uncaught (bad : Err) : Prop := bad = .fuel ∨ bad = .name

structure RelRec (bad : Err) (R R' : Rec) : Prop where
  unc : Uncaught bad
  build : R.build = R'.build ∨ (bad = .name ∧ R.build = .pinned)
  analyse : ∀ s v, Rel bad (R.analyse s v) (R'.analyse s v)
  slinkuhi : ∀ y mz v, Rel bad (R.slinkuhi y mz v) (R'.slinkuhi y mz v)

variable {bad : Err} {R R' : Rec}

theorem rel_isBrivlaR (h : RelRec bad R R') (s : Settings) (v : Str) :
    Rel bad (isBrivlaR R s v) (isBrivlaR R' s v) := by
  unfold isBrivlaR
  rcases h.analyse s v with h1 | h1
  · left; rw [h1]; rcases h.unc with rfl | rfl <;> rfl
  · rw [h1]; exact Rel.same

theorem rel_fallsApartBefore (h : RelRec bad R R') (y : YHyphens) (v : Str) (p : Nat) : ∀ k i,
    Rel bad (fallsApartBefore R y v p k i) (fallsApartBefore R' y v p k i) := by
  intro k
  induction k with
  | zero => intro i; exact Rel.same
  | succ k ih =>
    intro i
    unfold fallsApartBefore
    refine Rel.bind Rel.same fun c => Rel.ite (Rel.bind (rel_isBrivlaR h _ _) fun b => Rel.ite Rel.same (ih _)) (ih _)

theorem rel_checkZihevlaOrRafsi (h : RelRec bad R R') (rz : Bool) (y : YHyphens) (e mz : Bool) (v : Str) :
    Rel bad (checkZihevlaOrRafsi R rz y e mz v) (checkZihevlaOrRafsi R' rz y e mz v) := by
  unfold checkZihevlaOrRafsi
  refine Rel.ite Rel.same (Rel.bind Rel.same fun st => Rel.ite Rel.same (Rel.bind ?_ fun _ => ?_))
  · cases st.clusterPos with
    | none => exact Rel.same
    | some p =>
      exact Rel.ite (Rel.bind (rel_isBrivlaR h _ _) fun b => Rel.ite Rel.same (rel_fallsApartBefore h _ _ _ _ _)) Rel.same
  · cases st.clusterPos with
    | none => exact Rel.same
    | some p =>
      exact Rel.bind Rel.same fun c => Rel.bind Rel.same fun sk => Rel.ite
        (Rel.bind (h.slinkuhi _ _ _) fun b => Rel.same) Rel.same

theorem rel_catchNotBrivla {α : Type} {x x' : Except Err α} (hb : Uncaught bad) (h : Rel bad x x') (e : Err) :
    Rel bad (catchNotBrivla e x) (catchNotBrivla e x') := by
  rcases h with h1 | h1
  · left; rw [h1]; rcases hb with rfl | rfl <;> rfl
  · rw [h1]; exact Rel.same

theorem rel_rafsiListShort (h : RelRec bad R R') (s : Settings) (f l : Bool) (v : Str) :
    Rel bad (rafsiListShort R s f l v) (rafsiListShort R' s f l v) := by
  unfold rafsiListShort
  exact Rel.bind (rel_catchNotBrivla h.unc (h.analyse _ _) _) fun a => Rel.same

theorem rel_rafsiKind (h : RelRec bad R R') (s : Settings) (v : Str) :
    Rel bad (rafsiKind R s v) (rafsiKind R' s v) := by
  unfold rafsiKind
  rcases h.analyse { yHyphens := s.yHyphens, expRafsi := s.expRafsi, allowMz := s.allowMz } v with h1 | h1
  · left; rw [h1]; rcases h.unc with rfl | rfl <;> rfl
  · rw [h1]
    split
    · exact Rel.same
    · refine Rel.ite ?_ Rel.same
      rcases rel_checkZihevlaOrRafsi h false s.yHyphens s.expRafsi s.allowMz v with h2 | h2
      · left; rw [h2]; rcases h.unc with rfl | rfl <;> rfl
      · rw [h2]; exact Rel.same
    · exact Rel.same

theorem rel_rafsiListRafsi (h : RelRec bad R R') (s : Settings) (f l : Bool) (v : Str) :
    Rel bad (rafsiListRafsi R s f l v) (rafsiListRafsi R' s f l v) := by
  unfold rafsiListRafsi
  exact Rel.ite (Rel.bind (rel_rafsiKind h _ _) fun _ => Rel.same) Rel.same

theorem rel_rafsiListWord (h : RelRec bad R R') (s : Settings) (f l : Bool) (v : Str) :
    Rel bad (rafsiListWord R s f l v) (rafsiListWord R' s f l v) := by
  unfold rafsiListWord
  refine Rel.ite Rel.same (Rel.bind Rel.same fun sh => Rel.bind ?_ fun t => Rel.same)
  rcases h.analyse { yHyphens := s.yHyphens, expRafsi := s.expRafsi, allowMz := s.allowMz } v with h1 | h1
  · left; rw [h1]; rcases h.unc with rfl | rfl <;> rfl
  · rw [h1]; exact Rel.same

theorem rel_rafsiListFor (h : RelRec bad R R') (s : Settings) (f l : Bool) (v : Str) :
    Rel bad (rafsiListFor R s f l v) (rafsiListFor R' s f l v) := by
  unfold rafsiListFor
  exact Rel.bind Rel.same fun c => Rel.ite
    (Rel.bind Rel.same fun fc => Rel.ite Rel.same (Rel.bind Rel.same fun l => Rel.ite Rel.same (Rel.ite
      (rel_rafsiListShort h _ _ _ _) (rel_rafsiListRafsi h _ _ _ _))))
    (rel_rafsiListWord h _ _ _ _)

theorem rel_rafsiListListFrom (h : RelRec bad R R') (s : Settings) (n : Nat) : ∀ l i,
    Rel bad (rafsiListListFrom R s n i l) (rafsiListListFrom R' s n i l) := by
  intro l
  induction l with
  | nil => intro i; exact Rel.same
  | cons v vs ih =>
    intro i
    unfold rafsiListListFrom
    exact Rel.bind (rel_rafsiListFor h _ _ _ _) fun a => Rel.bind (ih _) fun b => Rel.same

theorem rel_slinkuhiInJvozba (h : RelRec bad R R') (y : YHyphens) (mz : Bool) (v : Str) :
    Rel bad (slinkuhiInJvozba R y mz v) (slinkuhiInJvozba R' y mz v) := by
  unfold slinkuhiInJvozba
  rcases h.build with hb | ⟨hb, hp⟩
  · rw [← hb]
    split
    · exact Rel.same
    · exact h.slinkuhi _ _ _
  · rw [hp, hb]; exact .inl rfl

theorem rel_getLujvoFromList (h : RelRec bad R R') (s : Settings) (g : Bool) (l : List Str) :
    Rel bad (getLujvoFromList R s g l) (getLujvoFromList R' s g l) := by
  unfold getLujvoFromList getRafsiListList
  refine Rel.bind (rel_rafsiListListFrom h _ _ _ _) fun ll => Rel.bind Rel.same fun best => ?_
  split
  · exact Rel.same
  · exact Rel.ite (Rel.bind (rel_slinkuhiInJvozba h _ _ _) fun b => Rel.same) Rel.same

theorem rel_jvokaha (h : RelRec bad R R') (y : YHyphens) (co : Consonants) (g mz : Bool) (w : Str) :
    Rel bad (jvokaha R y co g mz w) (jvokaha R' y co g mz w) := by
  unfold jvokaha
  refine Rel.bind Rel.same fun arr => Rel.ite Rel.same ?_
  split
  · exact Rel.same
  · refine Rel.bind Rel.same fun l => Rel.bind ?_ fun r => Rel.same
    rcases rel_getLujvoFromList h { yHyphens := y, consonants := co, glides := g, allowMz := mz } (isConsonant l)
      ((arr.filter (fun x => x.length > 2)).map (fun x => s%"-" ++ x ++ s%"-")) with h1 | h1
    · left; rw [h1]; rcases h.unc with rfl | rfl <;> rfl
    · rw [h1]; exact Rel.same

theorem rel_succeeds {α : Type} {x x' : Except Err α} (hb : Uncaught bad) (h : Rel bad x x') :
    Rel bad (succeeds x) (succeeds x') := by
  rcases h with h1 | h1
  · left; rw [h1]; rcases hb with rfl | rfl <;> rfl
  · rw [h1]; exact Rel.same

theorem rel_isSlinkuhi (h : RelRec bad R R') (y : YHyphens) (mz : Bool) (w : Str) :
    Rel bad (isSlinkuhi R y mz w) (isSlinkuhi R' y mz w) := by
  unfold isSlinkuhi
  exact Rel.bind Rel.same fun c => Rel.ite Rel.same (rel_succeeds h.unc (rel_jvokaha h _ _ _ _ _))

theorem rel_tryKaha (h : RelRec bad R R') (ctx : ACtx) (f : PartForm) :
    Rel bad (tryKaha R ctx f) (tryKaha R' ctx f) := by
  unfold tryKaha
  refine Rel.bind (Rel.ite ?_ Rel.same) fun _ => Rel.same
  rcases h.analyse { yHyphens := ctx.s.yHyphens, allowMz := ctx.s.allowMz } f.partA with h1 | h1
  · left; rw [h1]; rcases h.unc with rfl | rfl <;> rfl
  · rw [h1]; exact Rel.same

theorem rel_tosmabruTest (h : RelRec bad R R') (ctx : ACtx) (f : PartForm) :
    Rel bad (tosmabruTest R ctx f) (tosmabruTest R' ctx f) := by
  unfold tosmabruTest
  exact Rel.bind Rel.same fun p => Rel.ite Rel.same (Rel.bind Rel.same fun b => Rel.ite Rel.same
    (Rel.bind (rel_succeeds h.unc (rel_jvokaha h _ _ _ _ _)) fun b => Rel.same))

theorem rel_analysePart (h : RelRec bad R R') (ctx : ACtx) (i : Nat) (p : Str) (st : AState) :
    Rel bad (analysePart R ctx i p st) (analysePart R' ctx i p st) := by
  unfold analysePart
  refine Rel.bind Rel.same fun a => Rel.ite Rel.same (Rel.bind Rel.same fun c0 => Rel.bind Rel.same fun f =>
    Rel.bind (Rel.ite (rel_tryKaha h _ _) Rel.same) fun x => ?_)
  refine Rel.ite (Rel.ite Rel.same (Rel.bind (Rel.ite (rel_tosmabruTest h _ _) Rel.same) fun _ => Rel.same))
    (Rel.bind ?_ fun sh => Rel.same)
  rcases rel_checkZihevlaOrRafsi h (f.requireCluster || !ctx.s.expRafsi) ctx.s.yHyphens ctx.s.expRafsi
    ctx.s.allowMz f.part with h1 | h1
  · left; rw [h1]; rcases h.unc with rfl | rfl <;> rfl
  · rw [h1]; exact Rel.same

theorem rel_analyseLoop (h : RelRec bad R R') (ctx : ACtx) : ∀ ps i st,
    Rel bad (analyseLoop R ctx i ps st) (analyseLoop R' ctx i ps st) := by
  intro ps
  induction ps with
  | nil => intro i st; exact Rel.same
  | cons p ps ih =>
    intro i st
    unfold analyseLoop
    exact Rel.bind (rel_analysePart h _ _ _ _) fun st => ih _ _

theorem rel_analyseY (h : RelRec bad R R') (s : Settings) (c : Bool) (w : Str) (yp : List Str) :
    Rel bad (analyseY R s c w yp) (analyseY R' s c w yp) := by
  unfold analyseY
  exact Rel.bind (rel_analyseLoop h _ _ _ _) fun st => Rel.ite Rel.same (Rel.bind Rel.same fun c0 =>
    Rel.bind Rel.same fun sk => Rel.bind (Rel.ite (rel_isSlinkuhi h _ _ _) Rel.same) fun b => Rel.same)

theorem rel_analyseRest (h : RelRec bad R R') (s : Settings) (c : Bool) (c0 : Char) (w : Str) :
    Rel bad (analyseRest R s c c0 w) (analyseRest R' s c c0 w) := by
  unfold analyseRest
  refine Rel.ite Rel.same (Rel.ite (Rel.ite Rel.same ?_) (rel_analyseY h _ _ _ _))
  rcases rel_checkZihevlaOrRafsi h true s.yHyphens s.expRafsi s.allowMz w with h1 | h1
  · left; rw [h1]; rcases h.unc with rfl | rfl <;> rfl
  · rw [h1]; exact Rel.same

theorem rel_analyseNorm (h : RelRec bad R R') (s : Settings) (w : Str) :
    Rel bad (analyseNorm R s w) (analyseNorm R' s w) := by
  unfold analyseNorm
  split
  · refine Rel.ite Rel.same (Rel.ite Rel.same (Rel.ite Rel.same ?_))
    rcases rel_jvokaha h s.yHyphens s.consonants s.glides s.allowMz w with h1 | h1
    · left; rw [h1]; rcases h.unc with rfl | rfl <;> rfl
    · rw [h1]
      split
      · exact Rel.same
      · exact rel_analyseRest h _ _ _ _
      · exact rel_analyseRest h _ _ _ _
      · exact rel_analyseRest h _ _ _ _
      · exact Rel.same
  · exact Rel.same

theorem rel_analyseR (h : RelRec bad R R') (s : Settings) (w : Str) :
    Rel bad (analyseR R s w) (analyseR R' s w) := by
  unfold analyseR
  exact Rel.bind Rel.same fun n => rel_analyseNorm h _ _

theorem recN_analyse (b : Build) (n : Nat) (s : Settings) (v : Str) :
    (recN b (n + 1)).analyse s v = analyseR (recN b n) s v := by rw [recN]

theorem recN_slinkuhi (b : Build) (n : Nat) (y : YHyphens) (mz : Bool) (v : Str) :
    (recN b (n + 1)).slinkuhi y mz v = isSlinkuhi (recN b n) y mz v := by rw [recN]

theorem recN_build (b : Build) (n : Nat) : (recN b n).build = b := by cases n <;> rw [recN]

/-- A larger recursion budget changes nothing once the budget suffices. -/
theorem relRec_fuel (b : Build) : ∀ n m, n ≤ m → RelRec .fuel (recN b n) (recN b m) := by
  intro n
  induction n with
  | zero =>
    intro m _
    refine ⟨.inl rfl, .inl ?_, fun _ _ => .inl (by rw [recN]), fun _ _ _ => .inl (by rw [recN])⟩
    rw [recN_build, recN_build]
  | succ n ih =>
    intro m hm
    cases m with
    | zero => omega
    | succ m =>
      have := ih m (by omega)
      refine ⟨.inl rfl, .inl ?_, fun s v => ?_, fun y mz v => ?_⟩
      · rw [recN_build, recN_build]
      · rw [recN_analyse, recN_analyse]; exact rel_analyseR this s v
      · rw [recN_slinkuhi, recN_slinkuhi]; exact rel_isSlinkuhi this y mz v

/-- `pinned` gives `NameError` or the result of `linked`. -/
theorem relRec_name : ∀ n, RelRec .name (recN .pinned n) (recN .linked n) := by
  intro n
  induction n with
  | zero =>
    refine ⟨.inr rfl, .inr ⟨rfl, recN_build _ _⟩, fun _ _ => ?_, fun _ _ _ => ?_⟩ <;> rw [recN, recN] <;> exact Rel.same
  | succ n ih =>
    refine ⟨.inr rfl, .inr ⟨rfl, recN_build _ _⟩, fun s v => ?_, fun y mz v => ?_⟩
    · rw [recN_analyse, recN_analyse]; exact rel_analyseR ih s v
    · rw [recN_slinkuhi, recN_slinkuhi]; exact rel_isSlinkuhi ih y mz v

end Jvotci
