import Verif.Lemmas.JsKaha

/-!
# The JavaScript analysis agrees with the Python one
-/

namespace Jvotci

open Spec

variable {R : Rec} {J : JsRec}

theorem zihVowels_cluster {valsi chunk : Str} {st st' : ZState} (h : zihVowels valsi chunk st = .ok st') : st'.clusterPos = st.clusterPos := by
  unfold zihVowels at h
  split at h
  · cases h
  · cases h
  · rename_i syls _
    simp only at h
    generalize hp : (if st.pos = 0 then valsi.getLast? else valsi[st.pos - 1]?) = before at h
    by_cases h1 : (st.clusterPos = none ∧ before ≠ some '\'' ∧ syls.length ≥ 2 ∧ st.pos + (join syls).length = valsi.length)
    · rw [if_pos h1] at h; cases h
    · rw [if_neg h1] at h
      have key : ∀ b : Bool, (if b then .error .notZihevla
          else .ok { st with pos := st.pos + chunk.length, numSyllables := st.numSyllables + syls.length } : Except Err ZState) = .ok st' →
          st'.clusterPos = st.clusterPos := by
        intro b hb
        cases b
        · cases hb; rfl
        · cases hb
      exact key _ h

theorem scan_ccv {mz : Bool} {a b c : Char} {st : ZState} (ha : isConsonant a = true) (hb : isConsonant b = true) (hc : isConsonant c = false)
    (h : zihScan mz [a, b, c] 4 [a, b, c] {} = .ok st) : INITIAL.contains [a, b] = true := by
  unfold zihScan at h
  rw [if_pos ha] at h
  obtain ⟨st', h', -⟩ := bind_ok h
  have e : [a, b, c].takeWhile isConsonant = [a, b] := by simp [List.takeWhile, ha, hb, hc]
  rw [e] at h'
  unfold zihConsonants at h'
  rw [if_neg (by simp)] at h'
  refine Classical.byContradiction fun hn => ?_
  rw [if_pos ⟨rfl, by simp, by simpa [slice] using hn⟩] at h'
  cases h'

theorem single_ccv {y : YHyphens} {mz : Bool} {v : Str} {st : ZState} (hs : Single y mz v) (hv : ∃ c, v.getLast? = some c ∧ Vowel c)
    (hst : zihScan mz v (v.length + 1) v {} = .ok st) (hcl : st.clusterPos ≠ none) :
    ∃ a b c, v = [a, b, c] ∧ InitialPair a b ∧ Vowel c := by
  obtain ⟨z, hz, hzv⟩ := hv
  have hr := (single_short hs (by rw [hz]; rintro ⟨⟩; exact absurd hzv (by decide))).2.2
  generalize hw : s%"to" ++ v = w at hr
  cases hr with
  | @cvv _ _ c _ _ h =>
    simp at hw
    obtain ⟨-, -, rfl⟩ := hw
    exfalso
    unfold zihScan at hst
    have hv := (isVowel_iff _).2 h
    have hc : ¬ isConsonant c = true := fun hh => vowel_not_consonant h ((isConsonant_iff _).1 hh)
    rw [if_neg hc, if_pos hv] at hst
    obtain ⟨st', h', hst⟩ := bind_ok hst
    have e : [c].dropWhile isVowel = [] := by simp [hv]
    rw [e] at hst
    unfold zihScan at hst
    cases hst
    exact hcl (zihVowels_cluster h')
  | cvhv _ _ h =>
    simp at hw
    obtain ⟨-, -, rfl⟩ := hw
    exfalso
    unfold zihScan at hst
    rw [if_neg (by decide), if_neg (by decide), if_pos rfl, if_pos (by simp)] at hst
    cases hst
  | cvc _ _ h =>
    simp at hw
    obtain ⟨-, -, rfl⟩ := hw
    simp at hz
    subst hz
    exact absurd h (vowel_not_consonant hzv)
  | ccv h _ =>
    simp at hw
    obtain ⟨rfl, rfl, -⟩ := hw
    exact absurd h (by decide)
  | cvcc _ _ h =>
    simp at hw
    obtain ⟨-, -, rfl⟩ := hw
    simp at hz
    subst hz
    exact absurd h.2.1 (vowel_not_consonant hzv)
  | ccvc h _ _ =>
    simp at hw
    obtain ⟨rfl, rfl, -⟩ := hw
    exact absurd h (by decide)
  | gismu h =>
    cases h with
    | @cvccv a b c d e _ _ hp he =>
      simp at hw
      obtain ⟨-, -, rfl⟩ := hw
      have hcd : Consonant c ∧ Consonant d := ⟨hp.1, hp.2.1⟩
      refine ⟨c, d, e, rfl, initial_contains.1 (scan_ccv (mz := mz) (st := st) ((isConsonant_iff _).2 hcd.1) ((isConsonant_iff _).2 hcd.2) ?_ hst), he⟩
      rw [Bool.eq_false_iff]
      exact fun hh => vowel_not_consonant he ((isConsonant_iff _).1 hh)
    | ccvcv h =>
      simp at hw
      obtain ⟨rfl, rfl, -⟩ := hw
      exact absurd h (by decide)

theorem cut_ccv {y : YHyphens} {mz : Bool} {a b c : Char} (h : InitialPair a b) (hc : Vowel c) : jvokaha2 y mz [a, b, c] = .ok [[a, b, c]] := by
  have hr : Rafsi mz [a, b, c] := .ccv h hc
  have : Reading y mz [[a, b, c]] := by
    refine ⟨⟨_, rfl, hr⟩, ⟨_, rfl, hr⟩, ?_, ?_, ?_⟩
    · intro p hp d e f he hv
      simp at hp
      subst hp
      cases he
      exact absurd (initial_consonants h).2 (vowel_not_consonant hv)
    · intro u p q v e
      have := congrArg List.length e
      simp at this
      omega
    · intro _ _ _ _ _ e; cases e
  have := C37_reading_found this
  simpa using this

/-! ## zi'evla -/

theorem ag_fallsApartBefore (h : AgRec R J) (y : YHyphens) (v : Str) (p : Nat) : ∀ k i,
    Ag (fallsApartBefore R y v p k i) (jsFallsApartBefore J y v p k i)
  | 0, _ => Ag.ok _
  | k + 1, i => by
    unfold fallsApartBefore jsFallsApartBefore
    refine Ag.bind_idx fun c hc => ?_
    simp only [jsAt_of hc, jsIsConsonant_one, jsIsGlide_eq]
    exact Ag.ite Iff.rfl (fun _ => Ag.bind (ag_isBrivlaR h _ _) fun _ _ => Ag.ite Iff.rfl (fun _ => Ag.err .notZihevla) fun _ =>
      ag_fallsApartBefore h y v p k (i + 1)) fun _ => ag_fallsApartBefore h y v p k (i + 1)

theorem ag_checkZihevlaOrRafsi (h : AgRec R J) (rz : Bool) (y : YHyphens) (ex mz : Bool) (v : Str) (hy : v.getLast? ≠ some 'y')
    (hs : rz = false → ∀ st, zihScan mz v (v.length + 1) v {} = .ok st → st.clusterPos ≠ none → ¬ Single y mz v) :
    Ag (checkZihevlaOrRafsi R rz y ex mz v) (jsCheckZihevlaOrRafsi J rz y ex mz v) := by
  unfold checkZihevlaOrRafsi jsCheckZihevlaOrRafsi
  refine Ag.ite Iff.rfl (fun _ => Ag.err .notZihevla) fun hlen => ?_
  rw [jsZihScan_eq mz v _ v {} rfl]
  refine Ag.bind (mapError_ag _) fun st hst => Ag.ite Iff.rfl (fun _ => Ag.err .notZihevla) fun _ => Ag.bind ?_ fun _ _ => ?_
  · cases st.clusterPos with
    | none => exact Ag.ok _
    | some p =>
      exact Ag.ite Iff.rfl (fun _ => Ag.bind (ag_isBrivlaR h _ _) fun _ _ => Ag.ite Iff.rfl (fun _ => Ag.err .notZihevla) fun _ =>
        ag_fallsApartBefore h ..) fun _ => Ag.ok _
  · cases hcl : st.clusterPos with
    | none =>
      refine Ag.ite Iff.rfl (fun _ => Ag.err .notZihevla) fun _ => Ag.bind_idx fun c hc => ?_
      rw [jsAt_of hc, jsIsConsonant_one]
      exact Ag.ite Iff.rfl (fun _ => Ag.err .notZihevla) fun _ => Ag.ite Iff.rfl (fun _ => Ag.err .notZihevla) fun _ =>
        Ag.ite Iff.rfl (fun _ => Ag.err .notZihevla) fun _ => Ag.ok _
    | some p =>
      refine Ag.bind_idx fun c hc => ?_
      have hns : ¬ Single y mz v := by
        cases rz with
        | false => exact hs rfl st hst (by rw [hcl]; simp)
        | true =>
          intro h
          have := (single_short h hy).1
          simp at hlen
          omega
      rw [jsAt_of hc, jsIsVowel_one]
      have fin : ∀ b : Bool, Ag (if (!b) = true then do
            if ← R.slinkuhi y mz v then .error .notZihevla else .ok .zihevla
          else .ok Shape.zihevla)
          (if (!b) = true then do
            if ← J.slinkuhi y mz v then .error .notZihevla else .ok .zihevla
          else .ok .zihevla) := fun b =>
        Ag.ite Iff.rfl (fun _ => Ag.bind (h.slinkuhi _ _ _ hns) fun _ _ => Ag.ite Iff.rfl (fun _ => Ag.err .notZihevla) fun _ => Ag.ok _)
          fun _ => Ag.ok _
      by_cases hv : isVowel c = true
      · simp only [hv, if_true, Bool.true_and]
        cases hd : v[1]? with
        | none => simp only [idx, hd]; exact Ag.index
        | some d =>
          simp only [idx, hd]
          rw [jsAt_of hd, jsIsConsonant_one]
          exact fin _
      · simp only [hv]
        exact fin false

/-! ## The parts between y -/

theorem ag_tryKaha (h : AgRec R J) (ctx : ACtx) (f : PartForm)
    (hclean : Errs [.notBrivla] ((program .linked).analyse { yHyphens := ctx.s.yHyphens, allowMz := ctx.s.allowMz } f.partA)) :
    Ag (tryKaha R ctx f) (jsTryKaha J ctx f) := by
  unfold tryKaha jsTryKaha
  refine Ag.bind ?_ fun _ _ => ?_
  · rw [jsIsGismu_eq]
    refine Ag.ite Iff.rfl (fun _ => ?_) fun _ => Ag.ok _
    have hr := h.rel.analyse { yHyphens := ctx.s.yHyphens, allowMz := ctx.s.allowMz } f.partA
    rcases (h.analyse { yHyphens := ctx.s.yHyphens, allowMz := ctx.s.allowMz } f.partA).cases with ⟨a, h1, h2⟩ | ⟨e, h1, hv⟩ | ⟨e, hv, h1, h2⟩
    · rw [h1, h2]
      exact Ag.ite Iff.rfl (fun _ => Ag.err .notBrivla) fun _ => Ag.ok _
    · rw [h1]
      rcases hv with rfl | rfl | rfl <;> exact Ag.void (by simp [Void])
    · have he : e = .notBrivla := by
        rcases hr with hr | hr
        · rw [h1] at hr
          cases hr
          exact absurd (by simp [Void]) hv
        · rw [h1] at hr
          simpa using hclean e hr.symm
      subst he
      rw [h1, h2]
      exact Ag.ok _
  · rw [jsJvokaha2_eq]
    cases jvokaha2 ctx.s.yHyphens ctx.s.allowMz f.partCopy with
    | error e => cases e <;> first | exact Ag.ok _ | exact Ag.err _ | exact Ag.void (by simp [Void])
    | ok found =>
      match found with
      | [] => exact Ag.ok _
      | [p] =>
        simp only [Except.mapError, jsIsValidRafsi_eq]
        exact Ag.ite Iff.rfl (fun _ => Ag.err .notBrivla) fun _ => Ag.ok _
      | _ :: _ :: _ => exact Ag.ok _

theorem tryKaha_no {ctx : ACtx} {f : PartForm} {found : List Str} (h : tryKaha R ctx f = .ok (found, false)) {arr : List Str}
    (ha : jvokaha2 ctx.s.yHyphens ctx.s.allowMz f.partCopy = .ok arr) : arr = [] := by
  unfold tryKaha at h
  obtain ⟨_, _, h⟩ := bind_ok h
  rw [ha] at h
  match arr, h with
  | [], _ => rfl
  | [p], h =>
    simp only at h
    split at h <;> cases h
  | _ :: _ :: _, h => cases h

theorem bind_assoc' {α β γ : Type} (x : Except Err α) (f : α → Except Err β) (g : β → Except Err γ) :
    ((x >>= f) >>= g) = (x >>= fun a => f a >>= g) := by cases x <;> rfl

theorem ag_tosmabruTest (h : AgRec R J) (ctx : ACtx) (f : PartForm) : Ag (tosmabruTest R ctx f) (jsTosmabruTest J ctx f) := by
  unfold tosmabruTest jsTosmabruTest
  simp only [jsRafsiTarmi_eq, jsIsValidRafsi_eq, jsStripHyphens_eq]
  have rest : ∀ toPart : Str, Ag (do
      let smabru0 : Str := if toPart.isEmpty then [] else f.part.drop toPart.length
      if smabru0.isEmpty then .ok ()
      else
      let smabru := if f.didAddA then dropLastN smabru0 1 else stripHyphens smabru0
      let bad ← (if isValidRafsi false smabru then
          if rafsiTarmi smabru = .ccv then do
            let c ← idx ((ctx.yParts[0]?).getD []) (toPart.length + 3)
            Except.ok (c != '\'')
          else .ok true
        else Except.ok false)
      if bad then .error .notBrivla
      else
      if ← succeeds (jvokaha R ctx.s.yHyphens .cluster false ctx.s.allowMz smabru) then .error .notBrivla
      else .ok ())
      (let smabru0 : Str := if toPart.isEmpty then [] else f.part.drop toPart.length
      if smabru0.isEmpty then .ok ()
      else
      let smabru := if f.didAddA then dropLastN smabru0 1 else stripHyphens smabru0
      if isValidRafsi false smabru &&
          !(rafsiTarmi smabru = .ccv && jsAt (((ctx.yParts[0]?).getD []).drop toPart.length) 3 = some s%"'") then
        .error .notBrivla
      else
      match jsJvokaha J ctx.s.yHyphens .cluster false ctx.s.allowMz smabru with
      | .ok _ => .error .notBrivla
      | .error .decomposition | .error .invalidCluster | .error .type => .ok ()
      | .error e => .error e) := by
    intro toPart
    simp only
    generalize (if toPart.isEmpty = true then [] else f.part.drop toPart.length) = smabru0
    refine Ag.ite Iff.rfl (fun _ => Ag.ok _) fun _ => ?_
    generalize (if f.didAddA = true then dropLastN smabru0 1 else stripHyphens smabru0) = smabru
    have fin : Ag (do
        if ← succeeds (jvokaha R ctx.s.yHyphens .cluster false ctx.s.allowMz smabru) then .error .notBrivla
        else .ok ())
        (match jsJvokaha J ctx.s.yHyphens .cluster false ctx.s.allowMz smabru with
        | .ok _ => .error .notBrivla
        | .error .decomposition | .error .invalidCluster | .error .type => .ok ()
        | .error e => .error e) := by
      rcases agj_jvokaha h ctx.s.yHyphens .cluster false ctx.s.allowMz smabru with h | ⟨-, h1, h2⟩
      · rcases h.cases with ⟨a, h1, h2⟩ | ⟨e, h1, hv⟩ | ⟨e, hv, h1, h2⟩
        · rw [h1, h2]; exact Ag.err .notBrivla
        · rw [h1]
          rcases hv with rfl | rfl | rfl <;> exact Ag.void (by simp [Void])
        · rw [h1, h2]
          cases e <;> first | exact Ag.ok _ | exact Ag.err _ | exact absurd (by simp [Void]) hv
      · rw [h1, h2]; exact Ag.ok _
    cases hval : isValidRafsi false smabru with
    | false => simpa [ok_bind] using fin
    | true =>
      by_cases ht : rafsiTarmi smabru = .ccv
      · simp only [ht, if_true]
        refine (congrArg (fun x => Ag x _) (bind_assoc' _ _ _)).mpr ?_
        refine Ag.bind_idx fun c hc => ?_
        have : jsAt (((ctx.yParts[0]?).getD []).drop toPart.length) 3 = some [c] := jsAt_of (by rw [List.getElem?_drop]; exact hc)
        rw [this]
        by_cases hq : c = '\''
        · subst hq
          simpa [ok_bind] using fin
        · simpa [hq, ok_bind, toJ] using Ag.err (α := Unit) .notBrivla
      · simp only [ht, if_false]
        simpa [ok_bind, toJ] using Ag.err (α := Unit) .notBrivla
  by_cases h1 : rafsiTarmi (slice f.part 0 4) = .cvhv
  · simp only [h1, if_true]
    exact rest _
  · simp only [h1, if_false]
    by_cases h2 : rafsiTarmi (slice f.part 0 3) = .cvv
    · simp only [h2, if_true]
      exact rest _
    · simp only [h2, if_false]
      rw [bind_assoc']
      refine Ag.bind_idx fun a ha => ?_
      rw [jsAt_of ha, jsIsConsonant_one]
      by_cases hc : isConsonant a = true
      · simp only [hc, if_true, Bool.true_and]
        rw [bind_assoc']
        refine Ag.bind_idx fun b hb => ?_
        rw [jsAt_of hb, jsIsVowel_one]
        by_cases hv : isVowel b = true
        · simp only [hv, if_true]
          exact rest _
        · simp only [hv]
          exact rest []
      · simp only [hc, Bool.false_and]
        exact rest []

theorem ag_analysePart (h : AgRec R J) {ctx : ACtx} {i : Nat} {p : Str} {st : AState}
    (hst : ∀ d ∈ p, readChar d = [d]) (hy : 'y' ∉ p)
    (hlast : i + 1 < ctx.yParts.length ∨ ctx.isCmevlatai = true ∨ ∃ c, p.getLast? = some c ∧ Vowel c) :
    Ag (analysePart R ctx i p st) (jsAnalysePart J ctx i p st) := by
  unfold analysePart jsAnalysePart
  refine Ag.bind (ag_stripLeadingH i p) fun ⟨part, lead⟩ hs => ?_
  obtain ⟨hne, hp0, hl1, hl2⟩ := stripLeadingH_ok hs
  simp only [jsRafsiTarmi_eq, jsIsGlide_eq, jsCountFound_eq]
  refine Ag.ite Iff.rfl (fun _ => Ag.ok _) fun _ => Ag.bind_idx fun c0 hc0 => ?_
  rw [jsAt_of hc0, jsIsConsonant_one]
  refine Ag.bind (ag_partForm ..) fun f hf => ?_
  obtain ⟨e1, e2, e3, e4, e5, e6, e7, e8, -⟩ := partForm_ok hf
  have hmem : ∀ d ∈ part, d ∈ p := by
    intro d hd; rw [hp0]; split <;> simp [hd]
  have hplast : p.getLast? = part.getLast? := by
    rw [hp0]
    split
    · rw [List.getLast?_cons_of_ne_nil hne]
    · rfl
  have ha : readChar 'a' = ['a'] := by decide
  have hmemA : ∀ d ∈ part ++ s%"a", readChar d = [d] ∧ d ≠ 'y' := by
    intro d hd
    rcases List.mem_append.1 hd with hd | hd
    · exact ⟨hst d (hmem d hd), by rintro rfl; exact hy (hmem _ hd)⟩
    · simp at hd; subst hd; exact ⟨ha, by decide⟩
  have hcopy : ∀ d ∈ f.partCopy, d ∈ part := by
    intro d hd; rw [e1]; simp [hd]
  have hyP : 'y' ∉ f.part := by
    intro hd
    rw [e2] at hd
    rcases List.mem_append.1 hd with hd | hd
    · exact (hmemA 'y' (List.mem_append_left _ (hcopy _ hd))).2 rfl
    · split at hd
      · exact (hmemA 'y' (List.mem_append_right _ hd)).2 rfl
      · simp at hd
  have hPv : ∃ c, f.part.getLast? = some c ∧ Vowel c := by
    rw [e2]
    cases hA : f.didAddA with
    | true => exact ⟨'a', by simp, by decide⟩
    | false =>
      simp
      cases hT : f.trailingH with
      | true =>
        obtain ⟨l, h, hv⟩ := e5 hT
        exact ⟨l, h, (isVowel_iff l).1 hv⟩
      | false =>
        rw [hA, hT] at e7
        simp at e7
        rw [hT] at e1
        simp at e1
        rw [← e1, ← hplast]
        rcases hlast with h | h | h
        · omega
        · rw [e7.2] at h; cases h
        · exact h
  have htry : Ag (if f.canBeRafsi = true then tryKaha R ctx f else Except.ok ([], false))
      (if f.canBeRafsi = true then jsTryKaha J ctx f else Except.ok ([], false)) := by
    refine Ag.ite Iff.rfl (fun _ => ag_tryKaha h ctx f ?_) fun _ => Ag.ok _
    rw [e3]
    exact clean_program (by simp) (fun h => (hmemA _ h).2 rfl) fun d h => (hmemA d h).1
  refine Ag.bind htry fun ⟨found, did⟩ hfd => ?_
  dsimp only
  refine Ag.ite Iff.rfl (fun hdid => Ag.ite (by grind) (fun _ => Ag.err .notBrivla) fun _ => Ag.bind
    (Ag.ite Iff.rfl (fun _ => ag_tosmabruTest h ctx f) fun _ => Ag.ok _) fun _ _ => Ag.ok _) fun hdid => Ag.bind ?_ fun sh _ => Ag.bind ?_ fun _ _ => ?_
  · have := ag_checkZihevlaOrRafsi h (f.requireCluster || !ctx.s.expRafsi) ctx.s.yHyphens ctx.s.expRafsi ctx.s.allowMz f.part
      (fun hl => hyP (List.mem_of_getLast? hl)) (by
        intro hrz st hst hcl hs
        obtain ⟨a, b, c, e, hab, hc⟩ := single_ccv hs hPv hst hcl
        have hA : f.didAddA = false := by
          have := partForm_added hf
          cases hA : f.didAddA with
          | false => rfl
          | true => rw [this hA] at hrz; cases hrz
        have hcb : f.canBeRafsi = true := by
          cases hcb : f.canBeRafsi with
          | true => rfl
          | false => rw [e8 hcb] at hA; cases hA
        rw [if_pos hcb] at hfd
        have hdf : did = false := by simpa using hdid
        subst hdf
        have hpc : f.partCopy = [a, b, c] := by
          rw [hA] at e2
          simp at e2
          rw [← e2, e]
        have := tryKaha_no hfd (arr := [[a, b, c]]) (by rw [hpc]; exact cut_ccv hab hc)
        cases this)
    rcases this.cases with ⟨a, h1, h2⟩ | ⟨e, h1, hv⟩ | ⟨e, hv, h1, h2⟩
    · rw [h1, h2]; exact Ag.ok _
    · rw [h1]
      rcases hv with rfl | rfl | rfl <;> exact Ag.void (by simp [Void])
    · rw [h1, h2]
      cases e <;> first | exact Ag.err _ | exact Ag.err .notBrivla | exact absurd (by simp [Void]) hv
  · refine Ag.ite Iff.rfl (fun _ => ?_) fun _ => Ag.ok _
    rw [jsJvokaha2_eq]
    cases jvokaha2 ctx.s.yHyphens ctx.s.allowMz f.part with
    | ok _ => exact Ag.err .notBrivla
    | error e => cases e <;> first | exact Ag.ok _ | exact Ag.err _ | exact Ag.void (by simp [Void])
  · refine Ag.bind_idx fun d hd => ?_
    rw [jsAt_of hd, jsIsConsonant_one]
    exact Ag.ok _

theorem splitOn_mem {c : Char} {s : Str} : ∀ p ∈ splitOn c s, ∀ d ∈ p, d ∈ s := by
  induction s with
  | nil => simp [splitOn]
  | cons a s ih =>
    unfold splitOn
    split
    · intro p hp d hd
      rcases List.mem_cons.1 hp with rfl | hp
      · cases hd
      · exact List.mem_cons_of_mem _ (ih p hp d hd)
    · split
      · rename_i hs; exact absurd hs (splitOn_ne_nil _ _)
      · rename_i p ps hs
        rw [hs] at ih
        intro q hq d hd
        rcases List.mem_cons.1 hq with rfl | hq
        · rcases List.mem_cons.1 hd with rfl | hd
          · simp
          · exact List.mem_cons_of_mem _ (ih p (by simp) d hd)
        · exact List.mem_cons_of_mem _ (ih q (by simp [hq]) d hd)

theorem ag_analyseLoop (h : AgRec R J) {ctx : ACtx} : ∀ (ps : List Str) (i : Nat) (st : AState),
    (∀ p ∈ ps, (∀ d ∈ p, readChar d = [d]) ∧ 'y' ∉ p) → i + ps.length = ctx.yParts.length →
    (ctx.isCmevlatai = true ∨ ∀ p, ps.getLast? = some p → ∃ c, p.getLast? = some c ∧ Vowel c) →
    Ag (analyseLoop R ctx i ps st) (jsAnalyseLoop J ctx i ps st)
  | [], _, _, _, _, _ => Ag.ok _
  | p :: ps, i, st, hps, hlen, hl => by
    unfold analyseLoop jsAnalyseLoop
    rw [List.length_cons] at hlen
    refine Ag.bind (ag_analysePart h (hps p (by simp)).1 (hps p (by simp)).2 ?_) fun st' _ =>
      ag_analyseLoop h ps (i + 1) st' (fun q hq => hps q (List.mem_cons_of_mem _ hq)) (by omega) ?_
    · cases ps with
      | nil =>
        rcases hl with hl | hl
        · exact .inr (.inl hl)
        · exact .inr (.inr (hl p rfl))
      | cons q qs => left; simp at hlen; omega
    · rcases hl with hl | hl
      · exact .inl hl
      · cases ps with
        | nil => right; intro p hp; cases hp
        | cons q qs => right; intro p' hp'; exact hl p' (by rw [List.getLast?_cons_cons]; exact hp')

theorem ag_analyseY (h : AgRec R J) (s : Settings) (cm : Bool) (v : Str) (hst : ∀ d ∈ v, readChar d = [d])
    (hym : 'y' ∈ v) (hl : if cm then ∃ c, v.getLast? = some c ∧ Consonant c else ∃ c, v.getLast? = some c ∧ Vowel c) :
    Ag (analyseY R s cm v (splitOn 'y' v)) (jsAnalyseY J s cm v (splitOn 'y' v)) := by
  have hnl : v.getLast? ≠ some 'y' := by
    cases cm with
    | true => obtain ⟨c, h, hc⟩ := hl; rw [h]; rintro ⟨⟩; exact absurd hc (by decide)
    | false =>
      simp at hl
      obtain ⟨c, h, hc⟩ := hl; rw [h]; rintro ⟨⟩; exact absurd hc (by decide)
  unfold analyseY jsAnalyseY
  simp only [jsConsonantsOk_eq]
  refine Ag.bind (ag_analyseLoop h _ _ _ ?_ (by simp) ?_) fun st _ => Ag.ite Iff.rfl (fun _ => Ag.err .notBrivla) fun _ => ?_
  · intro p hp
    exact ⟨fun d hd => hst d (splitOn_mem p hp d hd), splitOn_not_mem 'y' v p hp⟩
  · cases cm with
    | true => exact .inl rfl
    | false =>
      right
      intro p hp
      simp at hl
      obtain ⟨c, hc, hv⟩ := hl
      obtain ⟨init, q, e, hq⟩ := splitOn_getLast (c := 'y') hc (by rintro rfl; exact absurd hv (by decide))
      rw [e] at hp
      simp at hp
      subst hp
      exact ⟨c, hq, hv⟩
  refine Ag.bind_idx fun c0 hc0 => ?_
  rw [jsAt_of hc0, jsIsVowel_one]
  have hns : ¬ Single s.yHyphens s.allowMz v := fun hs => (single_short hs hnl).2.1 hym
  have fin : ∀ b : Bool, Ag ((if (!b) = true then isSlinkuhi R s.yHyphens s.allowMz v else Except.ok false) >>= fun bad =>
      if bad then .error .notBrivla else .ok (if cm then BType.cmevla else .extendedLujvo, st.resultParts))
      ((if (!b) = true then jsIsSlinkuhi J s.yHyphens s.allowMz v else Except.ok false) >>= fun bad =>
      if bad then .error .notBrivla else .ok (if cm then BType.cmevla else .extendedLujvo, st.resultParts)) := fun b =>
    Ag.bind (Ag.ite Iff.rfl (fun _ => ag_isSlinkuhi h _ _ _ hns) fun _ => Ag.ok _) fun _ _ =>
      Ag.ite Iff.rfl (fun _ => Ag.err .notBrivla) fun _ => Ag.ok _
  by_cases hv : isVowel c0 = true
  · simp only [hv, if_true, Bool.true_and]
    cases hd : v[1]? with
    | none => simp only [idx, hd]; exact Ag.index
    | some d =>
      simp only [idx, hd]
      rw [jsAt_of hd, jsIsConsonant_one]
      have := fin (isConsonant d || d == 'y')
      have e : (decide (some [d] = some s%"y")) = (d == 'y') := by
        rw [Bool.eq_iff_iff]; simp
      rw [e]
      exact this
  · simp only [hv]
    exact fin false

theorem ag_analyseRest (h : AgRec R J) (s : Settings) (cm : Bool) (c0 : Char) (v : Str) (hc0 : v.head? = some c0) (hst : ∀ d ∈ v, readChar d = [d])
    (hl : if cm then ∃ c, v.getLast? = some c ∧ Consonant c else ∃ c, v.getLast? = some c ∧ Vowel c) :
    Ag (analyseRest R s cm c0 v) (jsAnalyseRest J s cm v) := by
  unfold analyseRest jsAnalyseRest
  have : v[0]? = some c0 := by rw [← List.head?_eq_getElem?]; exact hc0
  rw [jsAt_of this, jsIsVowel_one, jsIsConsonant_one]
  refine Ag.ite Iff.rfl (fun _ => Ag.err .notBrivla) fun _ => Ag.ite Iff.rfl (fun h1 => ?_) fun h1 => ag_analyseY h s cm v hst ?_ hl
  · refine Ag.ite Iff.rfl (fun _ => Ag.err .notBrivla) fun hcm => ?_
    have hnl : v.getLast? ≠ some 'y' := by
      rw [if_neg hcm] at hl
      obtain ⟨c, h, hc⟩ := hl; rw [h]; rintro ⟨⟩; exact absurd hc (by decide)
    rcases (ag_checkZihevlaOrRafsi h true s.yHyphens s.expRafsi s.allowMz v hnl nofun).cases with ⟨a, h1, h2⟩ | ⟨e, h1, hv⟩ | ⟨e, hv, h1, h2⟩
    · rw [h1, h2]; exact Ag.ok _
    · rw [h1]
      rcases hv with rfl | rfl | rfl <;> exact Ag.void (by simp [Void])
    · rw [h1, h2]
      cases e <;> first | exact Ag.err _ | exact Ag.err .notBrivla | exact absurd (by simp [Void]) hv
  · refine Classical.byContradiction fun hn => h1 ?_
    rw [splitOn_of_not_mem hn]
    rfl

/-- If Python's check of a decomposition raises `IndexError`, cutting the word does. -/
theorem jvokaha_index_js (h : AgRec R J) {y : YHyphens} {co : Consonants} {gl mz : Bool} {w : Str} {c : Char} (hwc : w.getLast? = some c)
    (hcv : Vowel c ∨ Consonant c) (hi : jvokaha R y co gl mz w = .error .index) : jsJvokaha J y co gl mz w = .error .decomposition := by
  have hp : jvokaha (program .linked) y co gl mz w = .error .index := by
    rcases rel_jvokaha h.rel y co gl mz w with h | h
    · rw [hi] at h; cases h
    · rw [← h]; exact hi
  unfold jsJvokaha
  rw [jsJvokaha2_eq]
  cases hk : jvokaha2 y mz w with
  | ok arr =>
    exfalso
    have := jvokaha_caught hwc hcv (y := y) (mz := mz) (co := co) (gl := gl) (by rw [hk]; exact .ok) _ hp
    exact absurd this (by decide)
  | error e =>
    unfold jvokaha at hp
    rw [hk] at hp
    cases hp
    rfl

theorem ag_analyseR (h : AgRec R J) (s : Settings) (w : Str) : Ag (analyseR R s w) (jsAnalyseR J s w) := by
  unfold analyseR jsAnalyseR
  by_cases hw : w = []
  · subst hw; exact Ag.index
  rw [normalise_eq hw, jsNormalise_eq]
  show Ag (analyseNorm R s (reading w)) _
  have hst : ∀ d ∈ reading w, readChar d = [d] := fun d hd => reading_chars hd
  generalize reading w = v at hst
  unfold analyseNorm
  cases v with
  | nil => exact Ag.err .notBrivla
  | cons c0 cs =>
    obtain ⟨last, hlast⟩ : ∃ l, (c0 :: cs).getLast? = some l := by
      cases hg : (c0 :: cs).getLast? with
      | none => simp at hg
      | some l => exact ⟨l, rfl⟩
    simp only [List.head?_cons, hlast, jsLast_of hlast, jsIsConsonant_one, jsIsVowel_one, jsIsGismu_eq]
    rw [if_neg (c := (c0 :: cs).length = 0) (by simp)]
    refine Ag.ite Iff.rfl (fun _ => Ag.err .notBrivla) fun hcv => Ag.ite Iff.rfl (fun _ => Ag.err .notBrivla) fun _ =>
      Ag.ite Iff.rfl (fun _ => Ag.ok _) fun _ => ?_
    have hcv' : Vowel last ∨ Consonant last := by
      rw [← isVowel_iff, ← isConsonant_iff]
      revert hcv
      cases isVowel last <;> cases isConsonant last <;> simp
    have hrest : Ag (analyseRest R s (isConsonant last) c0 (c0 :: cs)) (jsAnalyseRest J s (isConsonant last) (c0 :: cs)) := by
      refine ag_analyseRest h s _ c0 _ rfl hst ?_
      split
      · rename_i hc; exact ⟨last, hlast, (isConsonant_iff _).1 hc⟩
      · rename_i hc
        refine ⟨last, hlast, hcv'.resolve_right fun h => hc ((isConsonant_iff _).2 h)⟩
    rcases agj_jvokaha h s.yHyphens s.consonants s.glides s.allowMz (c0 :: cs) with ha | ⟨-, h1, h2⟩
    · rcases ha.cases with ⟨a, h1, h2⟩ | ⟨e, h1, hv⟩ | ⟨e, hv, h1, h2⟩
      · rw [h1, h2]; exact Ag.ok _
      · rcases hv with rfl | rfl | rfl
        · rw [h1, jvokaha_index_js h hlast hcv' h1]; exact hrest
        · rw [h1]; exact Ag.void (by simp [Void])
        · rw [h1]; exact Ag.void (by simp [Void])
      · rw [h1, h2]
        cases e <;> first | exact hrest | exact Ag.err _ | exact absurd (by simp [Void]) hv
    · rw [h1, h2]; exact hrest

theorem agRec_recN : ∀ n, AgRec (recN .linked n) (jsRecN n)
  | 0 => ⟨rfl, relRec_program .linked 0, fun _ _ => Ag.fuel, fun _ _ _ _ => Ag.fuel⟩
  | n + 1 => ⟨rfl, relRec_program .linked (n + 1), fun s v => ag_analyseR (agRec_recN n) s v, fun y mz v hs => ag_isSlinkuhi (agRec_recN n) y mz v hs⟩

theorem ag_analyseBrivla (s : Settings) (w : Str) : Ag (analyseBrivla .linked s w) (jsAnalyseBrivla s w) :=
  ag_analyseR (agRec_recN _) s w

end Jvotci
