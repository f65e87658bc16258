import Verif.Lemmas.ExtTos
import Verif.Lemmas.Tails

/-!
# Helper lemmas: one part of an extended lujvo
-/

namespace Jvotci

open Spec

/-! ## The apostrophe after y -/

/-- What must follow y'. -/
def LeadOk (core : Str) : Prop :=
  ∃ x t syls, Run Vowel core [] x t ∧ syls.flatten = x ∧ VowelRun syls ∧ ∀ h, syls.head? = some h → ¬ Glided h

theorem leadOk_iff {v : Char} {cs : Str} : LeadOk (v :: cs) ↔ Vowel v ∧ ∃ s0 ss, splitVowelCluster ((v :: cs).takeWhile isVowel) = .ok (s0 :: ss) ∧
    FOLLOW_VOWEL_CLUSTERS.contains s0 = false := by
  have hf : ∀ s0 : Str, FOLLOW_VOWEL_CLUSTERS.contains s0 = false ↔ ¬ Glided s0 := by
    intro s0
    rw [← mem_follow, ← Bool.not_eq_true, List.contains_iff_mem]
  constructor
  · rintro ⟨x, t, syls, hr, rfl, hV, hg⟩
    have hne := hr.some
    cases hx : syls.flatten with
    | nil => exact absurd hx hne
    | cons a x =>
      rw [hx] at hr
      have e := hr.eq
      simp at e
      have hv : Vowel v := by rw [e.1]; exact hr.all a (by simp)
      refine ⟨hv, ?_⟩
      have htw : (v :: cs).takeWhile isVowel = a :: x := by
        rw [hr.eq]
        rw [List.nil_append, List.takeWhile_append_of_pos (fun c hc => (isVowel_iff c).2 (hr.all c hc))]
        have : t.takeWhile isVowel = [] := by
          cases t with
          | nil => rfl
          | cons b t =>
            have := hr.after b rfl
            rw [List.takeWhile_cons_of_neg (by rwa [isVowel_iff])]
        rw [this, List.append_nil]
      rw [htw, ← hx]
      cases syls with
      | nil => simp at hx
      | cons s0 ss => exact ⟨s0, ss, splitVowelCluster_iff.2 ⟨rfl, hV⟩, (hf s0).2 (hg s0 rfl)⟩
  · rintro ⟨hv, s0, ss, hs, hg⟩
    obtain ⟨e, hV⟩ := splitVowelCluster_iff.1 hs
    refine ⟨_, (v :: cs).dropWhile isVowel, s0 :: ss, ?_, e, hV, ?_⟩
    · exact run_of_split (pre := []) (v := v :: cs) isVowel_iff rfl ((isVowel_iff v).2 hv) (by simp)
    · intro h hh
      cases hh
      exact (hf _).1 hg

theorem strip_iff {i : Nat} {part0 part : Str} {lead : Bool} : stripLeadingH i part0 = .ok (part, lead) ↔
    part0 = (if lead then s%"'" else []) ++ part ∧ part ≠ [] ∧ (lead = true → LeadOk part) ∧
    (lead = false → part.head? ≠ some '\'' ∧ (0 < i → VowelInitial part → Onglide part)) := by
  unfold stripLeadingH
  cases part0 with
  | nil =>
    simp only [reduceCtorEq, false_iff]
    rintro ⟨e, h, -⟩
    cases lead <;> simp at e
    exact h e
  | cons c cs =>
    dsimp only
    split
    · rename_i hc
      subst hc
      cases cs with
      | nil =>
        simp only [reduceCtorEq, false_iff]
        rintro ⟨e, h, h1, h2⟩
        cases lead
        · simp at e; subst e; simp at h2
        · simp at e; exact h e
      | cons v t =>
        dsimp only
        constructor
        · intro h
          obtain ⟨hv, h⟩ := ite_error_ok h
          obtain ⟨sy, hsy, h⟩ := bind_ok h
          cases sy with
          | nil => cases h
          | cons s0 ss =>
            dsimp only at h
            obtain ⟨hf, h⟩ := ite_error_ok h
            cases h
            refine ⟨rfl, by simp, fun _ => leadOk_iff.2 ⟨(isVowel_iff v).1 (by simpa using hv), s0, ss, hsy, by simpa using hf⟩, by simp⟩
        · rintro ⟨e, hne, h1, h2⟩
          cases lead with
          | false =>
            simp at e
            subst e
            simp at h2
          | true =>
            simp at e
            subst e
            obtain ⟨hv, s0, ss, hs, hf⟩ := leadOk_iff.1 (h1 rfl)
            rw [if_neg (by simp [(isVowel_iff v).2 hv]), hs, ok_bind]
            dsimp only
            rw [if_neg (by simp only [hf]; simp)]
    · rename_i hc
      have hvi : VowelInitial (c :: cs) ↔ isVowel c = true := (isVowel_iff c).symm
      constructor
      · intro h
        obtain ⟨hg, h⟩ := ite_error_ok h
        cases h
        refine ⟨rfl, by simp, by simp, fun _ => ⟨by simpa using hc, fun hi hv => ?_⟩⟩
        rw [hvi] at hv
        simp [hi, hv] at hg
        exact (isGlide_iff _).1 hg
      · rintro ⟨e, hne, h1, h2⟩
        cases lead with
        | true => simp at e; exact absurd e.1 hc
        | false =>
          simp at e
          subst e
          obtain ⟨-, h2⟩ := h2 rfl
          rw [if_neg]
          intro h
          simp at h
          have := h2 h.1.1 (hvi.2 h.1.2)
          rw [← isGlide_iff] at this
          rw [h.2] at this
          cases this

/-! ## The three forms of a part -/

theorem form_trail {ctx : ACtx} {i : Nat} {hc : Bool} {core : Str} {l : Char} {nextLead : Bool} (hl : core.getLast? = some l) (hv : Vowel l)
    (hi : i + 1 < ctx.yParts.length) (hn : ∃ q, ctx.yParts[i + 1]? = some q ∧ q ≠ [] ∧ (nextLead = true ↔ q.head? = some '\'')) :
    partForm ctx i hc (core ++ s%"'") = .ok { part := core, partCopy := core, partA := core ++ s%"'" ++ s%"a", canBeRafsi := true, requireCluster := decide (ctx.s.yHyphens = .standard ∧ hc = false ∧ nextLead = false), didAddA := false, trailingH := true } := by
  obtain ⟨q, hq, hqn, hql⟩ := hn
  unfold partForm
  have h1 : idxLast (core ++ s%"'") = .ok '\'' := by simp [idxLast]
  have h2 : dropLastN (core ++ s%"'") 1 = core := by simp [dropLastN]
  have h3 : idxLast core = .ok l := by simp [idxLast, hl]
  dsimp only
  rw [h1, ok_bind, if_pos rfl, h2, h3]
  have h4 : (if ctx.s.yHyphens = .standard ∧ !hc ∧ i + 1 < ctx.yParts.length then do
          let c ← idx ((ctx.yParts[i + 1]?).getD []) 0
          Except.ok (c != '\'')
        else Except.ok false) = (.ok (decide (ctx.s.yHyphens = .standard ∧ hc = false ∧ nextLead = false)) : Except Err Bool) := by
    rw [hq]
    cases q with
    | nil => exact absurd rfl hqn
    | cons a q =>
      simp only [List.head?_cons, Option.some.injEq] at hql
      rw [show idx ((some (a :: q)).getD []) 0 = .ok a from rfl, ok_bind]
      by_cases h : ctx.s.yHyphens = .standard ∧ (!hc) = true ∧ i + 1 < ctx.yParts.length
      · rw [if_pos h]
        have := h.2.1
        simp at this
        have hnl : (a != '\'') = !nextLead := by
          cases nextLead
          · have : a ≠ '\'' := by simpa using hql
            simp [this]
          · have : a = '\'' := by simpa using hql
            simp [this]
        simp [h.1, this, hnl]
      · rw [if_neg h]
        have : ¬ (ctx.s.yHyphens = .standard ∧ hc = false ∧ nextLead = false) := by
          rintro ⟨a, b, -⟩
          exact h ⟨a, by simp [b], hi⟩
        simp [this]
  rw [h4]
  simp only [ok_bind]
  rw [if_neg (by simp [(isVowel_iff l).2 hv])]

theorem form_middle {ctx : ACtx} {i : Nat} {hc : Bool} {core : Str} {l : Char} (hl : core.getLast? = some l) (hv : l ≠ '\'')
    (hi : i + 1 < ctx.yParts.length ∨ ctx.isCmevlatai = true) :
    partForm ctx i hc core = .ok { part := core ++ s%"a", partCopy := core, partA := core ++ s%"a", canBeRafsi := !isVowel l, requireCluster := true, didAddA := true, trailingH := false } := by
  unfold partForm
  have h3 : idxLast core = .ok l := by simp [idxLast, hl]
  dsimp only
  rw [h3, ok_bind, if_neg hv, if_pos hi]

theorem form_final {ctx : ACtx} {i : Nat} {hc : Bool} {core : Str} {l : Char} (hcm : ctx.isCmevlatai = false) (hl : core.getLast? = some l)
    (hv : l ≠ '\'') (hi : ¬ i + 1 < ctx.yParts.length) :
    partForm ctx i hc core = .ok { part := core, partCopy := core, partA := core ++ s%"a", canBeRafsi := true, requireCluster := false, didAddA := false, trailingH := false } := by
  unfold partForm
  have h3 : idxLast core = .ok l := by simp [idxLast, hl]
  dsimp only
  rw [h3, ok_bind, if_neg hv, if_neg (by rintro (h | h); exact hi h; rw [hcm] at h; cases h)]

/-! ## Reading a part as rafsi -/

theorem unreadable_iff {s : Settings} {x : Str} (hx : x ≠ []) (hy : 'y' ∉ x) :
    Unreadable s x ↔ ∃ e, jvokaha2 s.yHyphens s.allowMz x = .error e := by
  constructor
  · intro h
    cases hk : jvokaha2 s.yHyphens s.allowMz x with
    | error e => exact ⟨e, rfl⟩
    | ok ps =>
      obtain ⟨h1, h2⟩ := (reading_iff hx hy).1 hk
      exact absurd h2 (h ps h1)
  · rintro ⟨e, h⟩ qs hq hq2
    have := (reading_iff hx hy).2 ⟨hq, hq2⟩
    rw [h] at this
    cases this

theorem tryKaha_iff {ctx : ACtx} {f : PartForm} {found : List Str} {did : Bool} (hx : f.partCopy ≠ []) (hy : 'y' ∉ f.partCopy) :
    tryKaha (program .linked) ctx f = .ok (found, did) ↔ stemCheck ctx f.partA = .ok () ∧
      ((did = true ∧ Reading ctx.s.yHyphens ctx.s.allowMz found ∧ found.flatten = f.partCopy) ∨
       (did = false ∧ found = [f.part] ∧ Unreadable ctx.s f.partCopy)) := by
  have hd : tryKaha (program .linked) ctx f = (do
      let _ ← stemCheck ctx f.partA
      match jvokaha2 ctx.s.yHyphens ctx.s.allowMz f.partCopy with
      | .error .decomposition | .error .invalidCluster | .error .index => .ok ([f.part], false)
      | .error e => .error e
      | .ok found =>
        match found with
        | [] => .ok ([], false)
        | [p] => if !isValidRafsi ctx.s.allowMz p then .error .notBrivla else .ok (found, true)
        | _ => .ok (found, true)) := rfl
  rw [hd]
  cases hst : stemCheck ctx f.partA with
  | error e => simp [error_bind]
  | ok u =>
    simp only [ok_bind, true_and]
    cases hk : jvokaha2 ctx.s.yHyphens ctx.s.allowMz f.partCopy with
    | error e =>
      have h1 := (unreadable_iff hx hy).2 ⟨e, hk⟩
      have h2 := cut_errs hy e hk
      have h3 : ¬ (Reading ctx.s.yHyphens ctx.s.allowMz found ∧ found.flatten = f.partCopy) := fun h => h1 found h.1 h.2
      simp at h2
      rcases h2 with rfl | rfl | rfl <;> simp only [Except.ok.injEq, Prod.mk.injEq, h1, and_true, h3, and_false, false_or] <;>
        exact ⟨fun h => ⟨h.2.symm, h.1.symm⟩, fun h => ⟨h.2.symm, h.1.symm⟩⟩
    | ok ps =>
      obtain ⟨h1, h2⟩ := (reading_iff hx hy).1 hk
      have h3 : ¬ Unreadable ctx.s f.partCopy := fun h => h ps h1 h2
      have h4 : (Reading ctx.s.yHyphens ctx.s.allowMz found ∧ found.flatten = f.partCopy) ↔ ps = found := by
        rw [← reading_iff hx hy, hk]
        simp
      rw [h4]
      simp only [h3, and_false, or_false]
      match ps, h1 with
      | [], h1 => obtain ⟨p, hp, -⟩ := h1.first; cases hp
      | [p], h1 =>
        have : isValidRafsi ctx.s.allowMz p = true := by
          obtain ⟨q, hq, hr⟩ := h1.first
          cases hq
          exact isValidRafsi_iff.2 hr
        simp [this]
        exact and_comm
      | p :: q :: ps, _ => simp; exact and_comm

end Jvotci
