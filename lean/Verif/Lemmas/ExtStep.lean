import Verif.Lemmas.ExtZih

/-!
# Helper lemmas: the loop over the parts of an extended lujvo, one step
-/

namespace Jvotci

open Spec

/-- The converse of `analysePart_ok`. -/
theorem analysePart_of {R : Rec} {ctx : ACtx} {i : Nat} {part0 : Str} {st st' : AState} (h :
    ∃ part lead, stripLeadingH i part0 = .ok (part, lead) ∧
      ((rafsiTarmi part = .cvc ∧
          st' = { st with resultParts := withHyphen i st lead ++ [part], nextHyphen := [],
                          consonantBeforeBreak := true, numConsonants := st.numConsonants + 2 }) ∨
       (rafsiTarmi part ≠ .cvc ∧ ∃ c0 f found did, part[0]? = some c0 ∧
          let mah := if i > 0 && (isConsonant c0 || isGlide part) then false else st.isMahortai
          let hc := if st.consonantBeforeBreak && (isConsonant c0 || (ctx.s.glides && isGlide part)) then true
            else st.hasCluster
          partForm ctx i hc part = .ok f ∧
          (if f.canBeRafsi then tryKaha R ctx f else Except.ok ([], false)) = .ok (found, did) ∧
          let nh := if f.trailingH then s%"'" else []
          let cf := countFound found (st.numConsonants, hc)
          ((did = true ∧
            ¬ ((rafsiTarmi f.part = .cvv ∨ rafsiTarmi f.part = .cvhv) ∧
                f.requireCluster ∧ !cf.2 ∧ !ctx.isCmevlatai ∧
                (ctx.s.yHyphens = .standard ∨
                  ¬ (i + 2 = ctx.yParts.length ∧
                      (rafsiTarmi ((ctx.yParts[1]?).getD []) = .cvv ∨
                       rafsiTarmi ((ctx.yParts[1]?).getD []) = .ccv)))) ∧
            (if i = 0 then tosmabruTest R ctx f else Except.ok ()) = .ok () ∧
            st' = { resultParts := withHyphen i st lead ++ found, nextHyphen := nh, hasCluster := cf.2,
                    isMahortai := mah, consonantBeforeBreak := false, numConsonants := cf.1 }) ∨
           (did = false ∧ ∃ shape p0,
            checkZihevlaOrRafsi R (f.requireCluster || !ctx.s.expRafsi) ctx.s.yHyphens ctx.s.expRafsi
              ctx.s.allowMz f.part = .ok shape ∧
            (shape = .zihevla → f.didAddA = true →
              succeeds (jvokaha2 ctx.s.yHyphens ctx.s.allowMz f.part) = .ok false) ∧
            f.part[0]? = some p0 ∧
            st' = { resultParts := withHyphen i st lead ++ [f.partCopy], nextHyphen := nh,
                    hasCluster := if shape = .zihevla then true else cf.2,
                    isMahortai := mah, consonantBeforeBreak := false,
                    numConsonants := if isConsonant p0 || (ctx.s.glides && isGlide f.part) then cf.1 + 1
                      else cf.1 }))))) :
    analysePart R ctx i part0 st = .ok st' := by
  obtain ⟨part, lead, hs, h⟩ := h
  unfold analysePart
  dsimp only
  rw [hs, ok_bind]
  dsimp only
  have hh : (if lead then (if i ≠ 0 then st.nextHyphen ++ s%"y" else st.nextHyphen) ++ s%"'"
      else (if i ≠ 0 then st.nextHyphen ++ s%"y" else st.nextHyphen)) = hyphenBefore i st lead := by
    unfold hyphenBefore; cases lead <;> simp
  rw [hh]
  have hw : (if (hyphenBefore i st lead).isEmpty then st.resultParts
      else st.resultParts ++ [hyphenBefore i st lead]) = withHyphen i st lead := by
    unfold withHyphen; simp
  rw [hw]
  rcases h with ⟨hcvc, rfl⟩ | ⟨hcvc, c0, f, found, did, hc0, hf, hfd, h⟩
  · rw [if_pos hcvc]
  · have hi : idx part 0 = .ok c0 := by unfold idx; rw [hc0]
    rw [if_neg hcvc, hi, ok_bind]
    dsimp only at hf h
    rw [hf, ok_bind, hfd, ok_bind]
    dsimp only
    generalize countFound found _ = cf at h ⊢
    rcases h with ⟨rfl, hn, ht, rfl⟩ | ⟨rfl, shape, p0, hsh, hu, hp0, rfl⟩
    · rw [if_pos rfl, if_neg hn, ht]
      rfl
    · rw [if_neg (by simp), hsh]
      have hip : idx f.part 0 = .ok p0 := by unfold idx; rw [hp0]
      rw [hip]
      have hz : (if shape = .zihevla ∧ f.didAddA then do
          if ← succeeds (jvokaha2 ctx.s.yHyphens ctx.s.allowMz f.part) then Except.error .notBrivla
          else .ok ()
        else Except.ok ()) = (.ok () : Except Err Unit) := by
        split
        · rename_i h
          rw [hu h.1 h.2]; rfl
        · rfl
      dsimp only
      rw [ok_bind, hz]
      rfl

theorem takeWhile_snoc {p : Char → Bool} {c : Char} (h : p c = false) : ∀ x : Str, (x ++ [c]).takeWhile p = x.takeWhile p
  | [] => by simp [h]
  | a :: x => by
    simp only [List.cons_append, List.takeWhile_cons]
    split
    · rw [takeWhile_snoc h x]
    · rfl

theorem leadOk_trail {core : Str} {trail : Bool} (hne : core ≠ []) : LeadOk (core ++ (if trail then s%"'" else [])) ↔ LeadOk core := by
  cases trail with
  | false => simp
  | true =>
    cases core with
    | nil => exact absurd rfl hne
    | cons v cs =>
      simp only [if_true, List.cons_append]
      rw [leadOk_iff, leadOk_iff, ← List.cons_append, takeWhile_snoc (by decide)]

theorem onglide_trail {core : Str} {trail : Bool} : Onglide (core ++ (if trail then s%"'" else [])) ↔ Onglide core := by
  cases trail with
  | false => simp
  | true =>
    match core with
    | [] => simp [Onglide]
    | [a] =>
      simp [Onglide]
      intro _
      decide
    | a :: b :: c => simp [Onglide]

theorem initial_trail {core : Str} {trail : Bool} (hne : core ≠ []) : (ConsonantInitial (core ++ (if trail then s%"'" else [])) ↔ ConsonantInitial core) ∧
    (VowelInitial (core ++ (if trail then s%"'" else [])) ↔ VowelInitial core) := by
  cases core with
  | nil => exact absurd rfl hne
  | cons a c => exact ⟨Iff.rfl, Iff.rfl⟩

theorem starts_iff {gl trail : Bool} {core : Str} {c0 : Char} (hne : core ≠ []) (h0 : (core ++ (if trail then s%"'" else []))[0]? = some c0) :
    (isConsonant c0 || (gl && isGlide (core ++ (if trail then s%"'" else [])))) = true ↔ Starts gl core := by
  cases core with
  | nil => exact absurd rfl hne
  | cons a c =>
    simp at h0
    subst h0
    rw [Bool.or_eq_true, Bool.and_eq_true, isGlide_iff, onglide_trail, isConsonant_iff]
    rfl

/-- What a part does to the variables of the loop. -/
structure Steps (s : Settings) (i : Nat) (st : AState) (p : YPart) (st' : AState) : Prop where
  result : st'.resultParts = st.resultParts ++ (if i = 0 then [] else [st.nextHyphen ++ s%"y" ++ (if p.lead then s%"'" else [])]) ++ p.pieces
  hyphen : st'.nextHyphen = if p.trail then s%"'" else []
  cluster : st'.hasCluster = true ↔ st.hasCluster = true ∨ p.Cluster ∨ (st.consonantBeforeBreak = true ∧ p.kind ≠ .cvc ∧ Starts s.glides p.core)
  mahortai : st'.isMahortai = false ↔ st.isMahortai = false ∨ (0 < i ∧ p.kind ≠ .cvc ∧ (ConsonantInitial p.core ∨ Onglide p.core))
  before : st'.consonantBeforeBreak = true ↔ p.kind = .cvc
  count : st'.hasCluster = false → st'.numConsonants = st.numConsonants + p.count s

theorem withHyphen_eq {i : Nat} {st : AState} {lead : Bool} (h : i = 0 → st.nextHyphen = [] ∧ lead = false) :
    withHyphen i st lead = st.resultParts ++ (if i = 0 then [] else [st.nextHyphen ++ s%"y" ++ (if lead then s%"'" else [])]) := by
  unfold withHyphen hyphenBefore
  by_cases hi : i = 0
  · obtain ⟨h1, rfl⟩ := h hi
    simp [hi, h1]
  · simp [hi]

/-- The value of `has_cluster` before the rafsi of the part are counted. -/
def clusterAt (ctx : ACtx) (st : AState) (c0 : Char) (part : Str) : Bool :=
  if st.consonantBeforeBreak && (isConsonant c0 || (ctx.s.glides && isGlide part)) then true else st.hasCluster

theorem clusterAt_iff {ctx : ACtx} {st : AState} {trail : Bool} {core : Str} {c0 : Char} (hne : core ≠ [])
    (h0 : (core ++ (if trail then s%"'" else []))[0]? = some c0) :
    clusterAt ctx st c0 (core ++ (if trail then s%"'" else [])) = true ↔
      (st.hasCluster = true ∨ (st.consonantBeforeBreak = true ∧ Starts ctx.s.glides core)) := by
  rw [← starts_iff hne h0]
  unfold clusterAt
  cases st.consonantBeforeBreak <;> cases st.hasCluster <;> simp

/-- The value of `is_mahortai` after the part. -/
def mahAt (st : AState) (i : Nat) (c0 : Char) (part : Str) : Bool :=
  if i > 0 && (isConsonant c0 || isGlide part) then false else st.isMahortai

theorem mahAt_iff {st : AState} {i : Nat} {trail : Bool} {core : Str} {c0 : Char} (hne : core ≠ [])
    (h0 : (core ++ (if trail then s%"'" else []))[0]? = some c0) :
    mahAt st i c0 (core ++ (if trail then s%"'" else [])) = false ↔
      (st.isMahortai = false ∨ (0 < i ∧ (ConsonantInitial core ∨ Onglide core))) := by
  have := starts_iff (gl := true) hne h0
  unfold mahAt
  simp only [Bool.true_and] at this
  have hs : Starts true core ↔ ConsonantInitial core ∨ Onglide core := by unfold Starts; simp
  rw [← hs, ← this]
  by_cases hi : 0 < i
  · cases hb : (isConsonant c0 || isGlide (core ++ (if trail then s%"'" else []))) <;> simp [hi, hb]
  · simp [hi]

theorem steps_cvc {s : Settings} {i : Nat} {st : AState} {part : Str} {lead : Bool} (hh : i = 0 → st.nextHyphen = [] ∧ lead = false) :
    Steps s i st ⟨lead, part, false, .cvc, [part]⟩ { st with resultParts := withHyphen i st lead ++ [part], nextHyphen := [], consonantBeforeBreak := true, numConsonants := st.numConsonants + 2 } := by
  refine ⟨by simp [withHyphen_eq hh], rfl, ?_, ?_, by simp, fun _ => by simp [YPart.count]⟩
  · simp [YPart.Cluster]
  · simp

theorem steps_rafsi {ctx : ACtx} {i : Nat} {st : AState} {core : Str} {lead trail : Bool} {found : List Str} {c0 : Char}
    (hh : i = 0 → st.nextHyphen = [] ∧ lead = false) (hne : core ≠ []) (h0 : (core ++ (if trail then s%"'" else []))[0]? = some c0)
    (hr : ∀ p ∈ found, p = s%"r" ∨ p = s%"n" ∨ ∃ mz, Rafsi mz p) :
    Steps ctx.s i st ⟨lead, core, trail, .rafsi, found⟩ { resultParts := withHyphen i st lead ++ found, nextHyphen := if trail then s%"'" else [], hasCluster := (countFound found (st.numConsonants, clusterAt ctx st c0 (core ++ (if trail then s%"'" else [])))).2, isMahortai := mahAt st i c0 (core ++ (if trail then s%"'" else [])), consonantBeforeBreak := false, numConsonants := (countFound found (st.numConsonants, clusterAt ctx st c0 (core ++ (if trail then s%"'" else [])))).1 } := by
  obtain ⟨k1, k2⟩ := countFound_reading (n := st.numConsonants) (c := clusterAt ctx st c0 (core ++ (if trail then s%"'" else []))) hr
  refine ⟨by simp [withHyphen_eq hh], rfl, ?_, ?_, by simp, ?_⟩
  · simp only [k1, clusterAt_iff hne h0, YPart.Cluster]
    grind
  · simp only [mahAt_iff hne h0]
    simp
  · intro h
    dsimp only at h ⊢
    refine k2 fun p hp => ?_
    apply Classical.byContradiction
    intro hn
    rw [k1.2 (.inr ⟨p, hp, hn⟩)] at h
    cases h

theorem steps_zihevla {ctx : ACtx} {i : Nat} {st : AState} {core : Str} {lead trail : Bool} {n : Nat} {c0 : Char}
    (hh : i = 0 → st.nextHyphen = [] ∧ lead = false) (hne : core ≠ []) (h0 : (core ++ (if trail then s%"'" else []))[0]? = some c0) :
    Steps ctx.s i st ⟨lead, core, trail, .zihevla, [core]⟩ { resultParts := withHyphen i st lead ++ [core], nextHyphen := if trail then s%"'" else [], hasCluster := true, isMahortai := mahAt st i c0 (core ++ (if trail then s%"'" else [])), consonantBeforeBreak := false, numConsonants := n } := by
  refine ⟨by simp [withHyphen_eq hh], rfl, ?_, ?_, by simp, by simp⟩
  · simp [YPart.Cluster]
  · simp only [mahAt_iff hne h0]
    simp

theorem countFound_exp {s : Settings} {core : Str} {n : Nat} {c : Bool} (hv : ∃ c, core.getLast? = some c ∧ Vowel c)
    (hco : ∀ c ∈ core.tail, ¬ Consonant c) (hun : Unreadable s core) :
    countFound [core] (n, c) = (n + (if pattern core = s%"CVV" then 1 else 0), c) := by
  obtain ⟨l, hl, hlv⟩ := hv
  have hno : ∀ {a : Char} {t : Str}, core = a :: t → ∀ d ∈ t, isConsonant d = true → False := by
    rintro a t rfl d hd h
    exact hco d hd ((isConsonant_iff d).1 h)
  have key : rafsiTarmi core = .cvv ∨ rafsiTarmi core = .other := by
    cases ht : rafsiTarmi core with
    | cvv => exact .inl rfl
    | other => exact .inr rfl
    | cvhv =>
      have := hun [core] (cvhv_reading (pattern_cvhv.2 ht))
      simp at this
    | cvc => obtain ⟨_, _, _, e, -, -, h⟩ := tarmi_cvc.1 ht; exact (hno e _ (by simp) h).elim
    | ccv => obtain ⟨_, _, _, e, -, h, -⟩ := tarmi_ccv.1 ht; exact (hno e _ (by simp) h).elim
    | cvcc => obtain ⟨_, _, _, _, e, -, -, h, -⟩ := tarmi_cvcc.1 ht; exact (hno e _ (by simp) h).elim
    | ccvc => obtain ⟨_, _, _, _, e, -, h, -⟩ := tarmi_ccvc.1 ht; exact (hno e _ (by simp) h).elim
    | cvccv => obtain ⟨_, _, _, _, _, e, -, -, h, -⟩ := tarmi_cvccv.1 ht; exact (hno e _ (by simp) h).elim
    | ccvcv => obtain ⟨_, _, _, _, _, e, -, h, -⟩ := tarmi_ccvcv.1 ht; exact (hno e _ (by simp) h).elim
    | hyphen =>
      rcases tarmi_hyphen.1 ht with ⟨a, e, h⟩ | e
      · rw [e] at hl
        simp at hl
        subst hl
        rw [(isVowel_iff _).2 hlv] at h; cases h
      · rw [e] at hl
        simp at hl
        subst hl
        revert hlv; decide
  unfold countFound
  rcases key with h | h <;> rw [h] <;> simp [countFound, pattern_cvv, h]

theorem steps_exp {ctx : ACtx} {i : Nat} {st : AState} {core : Str} {lead trail : Bool} {c0 p0 : Char}
    (hh : i = 0 → st.nextHyphen = [] ∧ lead = false) (hne : core ≠ []) (h0 : (core ++ (if trail then s%"'" else []))[0]? = some c0)
    (hp0 : core[0]? = some p0)
    (hv : ∃ c, core.getLast? = some c ∧ Vowel c) (hco : ∀ c ∈ core.tail, ¬ Consonant c) (hun : Unreadable ctx.s core) :
    Steps ctx.s i st ⟨lead, core, trail, .exp, [core]⟩ { resultParts := withHyphen i st lead ++ [core], nextHyphen := if trail then s%"'" else [], hasCluster := (countFound [core] (st.numConsonants, clusterAt ctx st c0 (core ++ (if trail then s%"'" else [])))).2, isMahortai := mahAt st i c0 (core ++ (if trail then s%"'" else [])), consonantBeforeBreak := false, numConsonants := if isConsonant p0 || (ctx.s.glides && isGlide core) then (countFound [core] (st.numConsonants, clusterAt ctx st c0 (core ++ (if trail then s%"'" else [])))).1 + 1 else (countFound [core] (st.numConsonants, clusterAt ctx st c0 (core ++ (if trail then s%"'" else [])))).1 } := by
  rw [countFound_exp hv hco hun]
  refine ⟨by simp [withHyphen_eq hh], rfl, ?_, ?_, by simp, ?_⟩
  · simp only [clusterAt_iff hne h0, YPart.Cluster]
    simp
  · simp only [mahAt_iff hne h0]
    simp
  · intro _
    have := starts_iff (gl := ctx.s.glides) (trail := false) hne (c0 := p0) (by simpa using hp0)
    simp only [Bool.false_eq_true, if_false, List.append_nil] at this
    dsimp only [YPart.count]
    by_cases hs : Starts ctx.s.glides core
    · rw [if_pos (this.2 hs), if_pos hs]; omega
    · rw [if_neg (fun h => hs (this.1 h)), if_neg hs]; omega

end Jvotci
