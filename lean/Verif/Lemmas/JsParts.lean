import Verif.Lemmas.JsCut
import Verif.Lemmas.Zih
import Verif.Lemmas.Normalise

/-!
# The parts of the JavaScript analysis that do not recurse
-/

namespace Jvotci

open Spec

theorem mapError_ite {α : Type} {p : Prop} [Decidable p] (f : Err → JsErr) (a b : Except Err α) :
    (if p then a else b).mapError f = if p then a.mapError f else b.mapError f := by split <;> rfl

theorem ite_eq_mapError {α : Type} {p q : Prop} [Decidable p] [Decidable q] {f : Err → JsErr} {a b : Except Err α} {a' b' : Except JsErr α}
    (hpq : p ↔ q) (h1 : a' = a.mapError f) (h2 : ¬ p → b' = b.mapError f) : (if p then a' else b') = (if q then a else b).mapError f := by
  by_cases hp : p
  · rw [if_pos hp, if_pos (hpq.1 hp), h1]
  · rw [if_neg hp, if_neg (fun h => hp (hpq.2 h)), h2 hp]

theorem jsNormalise_ok {w n : Str} (h : normalise w = .ok n) : jsNormalise w = n := by
  unfold normalise at h
  cases w with
  | nil => cases h
  | cons c cs =>
    simp only at h
    unfold jsNormalise
    simp only [jsAt_cons_zero, Option.some.injEq, List.cons.injEq, and_true, List.drop_succ_cons, List.drop_zero]
    cases h
    rfl

theorem jsNormalise_eq (w : Str) : jsNormalise w = reading w := by
  by_cases h : w = []
  · subst h; rfl
  · exact jsNormalise_ok (normalise_eq h)

/-! ## The scan of a zi'evla -/

theorem jsZihConsonants_eq (mz : Bool) (chunk : Str) (st : ZState) :
    jsZihConsonants mz chunk st = (zihConsonants mz chunk st).mapError toJ := by
  unfold jsZihConsonants zihConsonants
  simp only [jsIsZihevlaInitialCluster_eq, jsIsZihevlaMiddleCluster_eq, validPairs]
  iterate 6 refine ite_eq_mapError Iff.rfl rfl fun _ => ?_
  rfl

theorem before_quote {valsi : Str} {p : Nat} (hp : p ≠ 0) :
    ((if p = 0 then none else jsAt valsi (p - 1)) ≠ some s%"'") = ((if p = 0 then valsi.getLast? else valsi[p - 1]?) ≠ some '\'') := by
  rw [if_neg hp, if_neg hp, Ne, jsAt_eq_some]

theorem jsZihVowels_eq {valsi chunk : Str} {st : ZState} (h : st.pos = 0 → chunk = valsi.takeWhile isVowel) :
    jsZihVowels valsi chunk st = (zihVowels valsi chunk st).mapError toJ := by
  unfold jsZihVowels zihVowels
  rw [jsSplitVowelCluster_eq]
  cases hs : splitVowelCluster chunk with
  | error e =>
    have := errs_splitVowelCluster chunk e hs
    simp only [List.mem_singleton] at this
    subst this
    rfl
  | ok syls =>
    have key : (st.clusterPos = none ∧ (if st.pos = 0 then none else jsAt valsi (st.pos - 1)) ≠ some s%"'" ∧ syls.length ≥ 2 ∧
        st.pos + (join syls).length = valsi.length) ↔ (st.clusterPos = none ∧
        (if st.pos = 0 then valsi.getLast? else valsi[st.pos - 1]?) ≠ some '\'' ∧ syls.length ≥ 2 ∧
        st.pos + (join syls).length = valsi.length) := by
      by_cases hp : st.pos = 0
      · simp only [hp, if_true]
        refine ⟨fun ⟨a, _, b, c⟩ => ⟨a, fun hq => ?_, b, c⟩, fun ⟨a, _, b, c⟩ => ⟨a, by simp, b, c⟩⟩
        have hj : join syls = chunk := (splitVowelCluster_iff.1 hs).1
        rw [hj, h hp, Nat.zero_add] at c
        have hall : valsi.takeWhile isVowel = valsi := (List.takeWhile_prefix _).eq_of_length c
        have := List.mem_of_getLast? hq
        rw [← hall] at this
        exact absurd (takeWhile_all _ this) (by decide)
      · rw [before_quote hp]
    show (if _ then _ else _) = (if _ then _ else _ : Except Err ZState).mapError toJ
    refine ite_eq_mapError key rfl fun _ => ?_
    exact ite_eq_mapError Iff.rfl rfl fun _ => rfl

theorem zihVowels_pos {valsi chunk : Str} {st st' : ZState} (h : zihVowels valsi chunk st = .ok st') : st'.pos = st.pos + chunk.length := by
  unfold zihVowels at h
  split at h
  · cases h
  · cases h
  · rename_i syls _
    simp only at h
    generalize hp : (if st.pos = 0 then valsi.getLast? else valsi[st.pos - 1]?) = before at h
    by_cases h1 : (st.clusterPos = none ∧ before ≠ some '\'' ∧ syls.length ≥ 2 ∧ st.pos + (join syls).length = valsi.length)
    · rw [if_pos h1] at h; cases h
    · rw [if_neg h1] at h
      have key : ∀ b : Bool, (if b then .error .notZihevla
          else .ok { st with pos := st.pos + chunk.length, numSyllables := st.numSyllables + syls.length } : Except Err ZState) = .ok st' →
          st'.pos = st.pos + chunk.length := by
        intro b hb
        cases b
        · cases hb; rfl
        · cases hb
      exact key _ h

theorem jsZihScan_eq (mz : Bool) (valsi : Str) : ∀ (fuel : Nat) (rest : Str) (st : ZState), rest = valsi.drop st.pos →
    jsZihScan mz valsi fuel rest st = (zihScan mz valsi fuel rest st).mapError toJ := by
  intro fuel
  induction fuel with
  | zero => intro rest st _; rfl
  | succ fuel ih =>
    intro rest st hr
    cases rest with
    | nil => rfl
    | cons c cs =>
      have adv : ∀ (p : Char → Bool), (c :: cs).dropWhile p = valsi.drop (st.pos + ((c :: cs).takeWhile p).length) := by
        intro p
        rw [← List.drop_drop, ← hr]
        conv => rhs; arg 2; rw [← List.takeWhile_append_dropWhile (p := p) (l := c :: cs)]
        rw [List.drop_left]
      unfold jsZihScan zihScan
      rw [jsVowelFun, jsConsonantFun, jsIsConsonant_one, jsIsVowel_one]
      split
      · simp only [jsZihConsonants_eq]
        cases hz : zihConsonants mz ((c :: cs).takeWhile isConsonant) st with
        | error e => rfl
        | ok st' =>
          refine ih _ _ ?_
          have : st'.pos = st.pos + ((c :: cs).takeWhile isConsonant).length := by
            unfold zihConsonants at hz
            repeat' split at hz
            all_goals cases hz
            all_goals rfl
          rw [this]
          exact adv isConsonant
      split
      · simp only
        rw [jsZihVowels_eq (by intro h0; rw [h0, List.drop_zero] at hr; rw [hr])]
        cases hz : zihVowels valsi ((c :: cs).takeWhile isVowel) st with
        | error e => rfl
        | ok st' =>
          refine ih _ _ ?_
          have : st'.pos = st.pos + ((c :: cs).takeWhile isVowel).length := zihVowels_pos hz
          rw [this]
          exact adv isVowel
      split
      · rw [jsIsVowel_at, jsIsVowel_at]
        refine ite_eq_mapError Iff.rfl rfl fun _ => ite_eq_mapError (by simp [List.isEmpty_iff]; exact Iff.rfl) rfl fun _ => ih _ _ ?_
        have := congrArg (List.drop 1) hr
        rw [List.drop_drop] at this
        simpa using this
      · rfl

/-! ## The parts between `y` -/

theorem ag_stripLeadingH (i : Nat) (p : Str) : Ag (stripLeadingH i p) (jsStripLeadingH i p) := by
  unfold stripLeadingH jsStripLeadingH
  cases p with
  | nil => exact Ag.err .notBrivla
  | cons c cs =>
    simp only [jsAt_cons_zero, Option.some.injEq, List.cons.injEq, and_true, List.length_cons, Nat.succ_ne_zero, if_false,
      List.drop_succ_cons, List.drop_zero, jsIsVowel_one, jsIsGlide_eq, jsVowelFun, jsSplitVowelCluster_eq, reduceCtorEq]
    refine Ag.ite Iff.rfl (fun _ => ?_) fun _ => Ag.ite Iff.rfl (fun _ => Ag.err .notBrivla) fun _ => Ag.ok _
    cases cs with
    | nil => exact Ag.err .notBrivla
    | cons v t =>
      simp only [List.length_cons, Nat.succ_ne_zero, if_false, jsAt_cons_zero, jsIsVowel_one]
      refine Ag.ite Iff.rfl (fun _ => Ag.err .notBrivla) fun _ => Ag.bind (mapError_ag _) fun syls _ => ?_
      cases syls with
      | nil => exact Ag.index
      | cons s0 rest => exact Ag.ite Iff.rfl (fun _ => Ag.err .notBrivla) fun _ => Ag.ok _

/-- A part that ends with an apostrophe. -/
def hForm (p : Str) (rc : Bool) : PartForm :=
  { part := dropLastN p 1, partCopy := dropLastN p 1, partA := p ++ s%"a", canBeRafsi := true, requireCluster := rc,
    didAddA := false, trailingH := true }

theorem ag_partForm (ctx : ACtx) (i : Nat) (hc : Bool) (p : Str) : Ag (partForm ctx i hc p) (jsPartForm ctx i hc p) := by
  unfold partForm jsPartForm
  refine Ag.bind_last fun l hl => ?_
  simp only [jsLast_of hl, jsIsVowel_one]
  refine Ag.ite (by simp) (fun _ => ?_) fun _ => Ag.ite Iff.rfl (fun _ => Ag.ok _) fun _ => Ag.ok _
  have key : ∀ rc : Bool, Ag (idxLast (dropLastN p 1) >>= fun l' => if !isVowel l' then .error .notBrivla else .ok (hForm p rc))
      (if !jsIsVowel (jsLast (dropLastN p 1)) then .error .notBrivla else .ok (hForm p rc)) := by
    intro rc
    refine Ag.bind_last fun l' hl' => ?_
    rw [jsLast_of hl', jsIsVowel_one]
    exact Ag.ite Iff.rfl (fun _ => Ag.err .notBrivla) fun _ => Ag.ok _
  by_cases hcond : ctx.s.yHyphens = .standard ∧ (!hc) = true ∧ i + 1 < ctx.yParts.length
  · rw [if_pos hcond]
    cases h0 : ((ctx.yParts[i + 1]?).getD [])[0]? with
    | none => simp only [idx, h0]; exact Ag.index
    | some c =>
      simp only [idx, h0]
      refine (congrArg (Ag _) ?_).mp (key (c != '\''))
      have : decide (ctx.s.yHyphens = .standard ∧ (!hc) = true ∧ i + 1 < ctx.yParts.length ∧
          jsAt ((ctx.yParts[i + 1]?).getD []) 0 ≠ some s%"'") = (c != '\'') := by
        rw [jsAt_of h0, Bool.eq_iff_iff, decide_eq_true_iff]
        simp only [ne_eq, Option.some.injEq, List.cons.injEq, and_true, bne_iff_ne]
        exact ⟨fun h => h.2.2.2, fun h => ⟨hcond.1, hcond.2.1, hcond.2.2, h⟩⟩
      rw [this]
      rfl
  · rw [if_neg hcond]
    refine (congrArg (Ag _) ?_).mp (key false)
    have : decide (ctx.s.yHyphens = .standard ∧ (!hc) = true ∧ i + 1 < ctx.yParts.length ∧
          jsAt ((ctx.yParts[i + 1]?).getD []) 0 ≠ some s%"'") = false := by
      rw [decide_eq_false_iff_not]
      exact fun h => hcond ⟨h.1, h.2.1, h.2.2.1⟩
    rw [this]
    rfl

theorem jsCountFound_eq : ∀ (l : List Str) (a : Nat × Bool), jsCountFound l a = countFound l a := by
  intro l
  induction l with
  | nil => intro a; rfl
  | cons p l ih =>
    intro a
    unfold jsCountFound countFound
    rw [jsRafsiTarmi_eq]
    simp only [ih]
    rfl

theorem jsConsonantsOk_eq (ctx : ACtx) (st : AState) : jsConsonantsOk ctx st = consonantsOk ctx st := rfl

theorem jsSearchSelrafsi_eq (r : Str) : jsSearchSelrafsi r = searchSelrafsi r := by
  unfold jsSearchSelrafsi searchSelrafsi
  simp only [jsIncludes_one]
  rfl

end Jvotci
