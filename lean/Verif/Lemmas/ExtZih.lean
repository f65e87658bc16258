import Verif.Lemmas.ExtKinds

/-!
# Helper lemmas: zi'evla and experimental rafsi in extended lujvo
-/

namespace Jvotci

open Spec

theorem cvc_reading {y : YHyphens} {mz : Bool} {x : Str} (h : pattern x = s%"CVC") : Reading y mz [x] := by
  obtain ⟨a, b, c, rfl, ha, hb, hc⟩ := tarmi_cvc.1 (pattern_cvc.1 h)
  have hr : Rafsi mz [a, b, c] := .cvc ((isConsonant_iff a).1 ha) ((isVowel_iff b).1 hb) ((isConsonant_iff c).1 hc)
  refine ⟨⟨_, rfl, hr⟩, ⟨_, rfl, hr⟩, ?_, ?_, ?_⟩
  · intro p hp c' a' b' e _ hbv
    simp at hp
    rw [hp] at e
    cases e
    exact absurd ((isConsonant_iff c).1 hc) (vowel_not_consonant hbv)
  · intro u p q v e
    have := congrArg List.length e
    simp at this
    omega
  · intro a b c v _ e
    simp at e

theorem cvhv_reading {y : YHyphens} {mz : Bool} {x : Str} (h : pattern x = s%"CV'V") : Reading y mz [x] := by
  obtain ⟨a, b, c, rfl, ha, hb, hc⟩ := tarmi_cvhv.1 (pattern_cvhv.1 h)
  have hr : Rafsi mz [a, b, '\'', c] := .cvhv ((isConsonant_iff a).1 ha) ((isVowel_iff b).1 hb) ((isVowel_iff c).1 hc)
  refine ⟨⟨_, rfl, hr⟩, ⟨_, rfl, hr⟩, ?_, ?_, ?_⟩
  · intro p hp c' a' b' e
    simp at hp
    rw [hp] at e
    cases e
  · intro u p q v e
    have := congrArg List.length e
    simp at this
    omega
  · intro a b c v _ e
    simp at e

theorem together_iff {mz : Bool} {y : YHyphens} {v : Str} (hS : Sounds mz v) (hv : ∃ c, v.getLast? = some c ∧ Vowel c)
    (hcl : ∃ u ch t, Run Consonant v u ch t ∧ 2 ≤ ch.length ∧ (u.filter (fun c => Consonant c)).length ≤ 1) (hlen : v.length < 10 ^ 95) :
    (∀ n, Syllables .nothing v n → 2 < n → NoBrivlaTail y v) ↔ (∀ n, Syllables .nothing v n → 2 < n → NoBrivlaLeft y v) := by
  constructor
  · intro h n hs hn
    exact (tails_iff ⟨hS, hv, hcl, n, hs, by omega⟩ hlen).1 h
  · intro h n hs hn
    exact (tails_iff ⟨hS, hv, hcl, n, hs, by omega⟩ hlen).2 (h n hs hn) n hs hn

theorem whole_vowel {ctx : ACtx} {hc : Bool} {core : Str} {l : Char} {trail last nextLead : Bool} (he : Ending core l trail last) :
    ∃ c, (formOf ctx hc core l trail last nextLead).part.getLast? = some c ∧ Vowel c := by
  unfold formOf
  cases trail with
  | true => exact ⟨l, by simpa using he.eq, (he.trail rfl).2⟩
  | false =>
    cases last with
    | true => exact ⟨l, by simpa using he.eq, he.last rfl⟩
    | false => exact ⟨'a', by simp, by decide⟩

theorem core_letters {ctx : ACtx} {hc : Bool} {core : Str} {l : Char} {trail last nextLead : Bool} {mz : Bool}
    (h : Sounds mz (formOf ctx hc core l trail last nextLead).part) : ∀ c ∈ core, Vowel c ∨ Consonant c ∨ c = '\'' := by
  intro c hc'
  refine h.letters c ?_
  unfold formOf
  simp [hc']

theorem whole_y {ctx : ACtx} {hc : Bool} {core : Str} {l : Char} {trail last nextLead : Bool} (hy : 'y' ∉ core) :
    'y' ∉ (formOf ctx hc core l trail last nextLead).part := by
  unfold formOf
  intro h
  rcases List.mem_append.1 h with h | h
  · exact hy h
  · split at h
    · revert h; decide
    · cases h

theorem whole_length {ctx : ACtx} {hc : Bool} {core : Str} {l : Char} {trail last nextLead : Bool} (hlen : core.length < 10 ^ 94) :
    (formOf ctx hc core l trail last nextLead).part.length < 10 ^ 95 := by
  have : (10 : Nat) ^ 95 = 10 * 10 ^ 94 := by rw [Nat.pow_succ, Nat.mul_comm]
  unfold formOf
  simp only [List.length_append]
  split <;> simp only [List.length_cons, List.length_nil] <;> omega

theorem can_iff {ctx : ACtx} {hc : Bool} {core : Str} {l : Char} {trail last nextLead : Bool} (he : Ending core l trail last)
    (hx : ∀ c ∈ core, Vowel c ∨ Consonant c ∨ c = '\'') :
    (formOf ctx hc core l trail last nextLead).canBeRafsi = true ↔ (trail = true ∨ last = true ∨ ∃ c, core.getLast? = some c ∧ Consonant c) := by
  have : (formOf ctx hc core l trail last nextLead).canBeRafsi = (trail || last || !isVowel l) := rfl
  rw [this]
  cases trail with
  | true => simp
  | false =>
    cases last with
    | true => simp
    | false =>
      simp
      constructor
      · intro h
        exact ⟨l, he.eq, ending_consonant he hx h⟩
      · rintro ⟨c, h1, h2⟩
        rw [he.eq] at h1
        cases h1
        cases hv : isVowel l with
        | false => rfl
        | true => exact absurd h2 (vowel_not_consonant ((isVowel_iff l).1 hv))

/-- Not read as rafsi. -/
theorem unread_iff {ctx : ACtx} {hc last nextLead trail : Bool} {core : Str} {l : Char} {found : List Str}
    (he : Ending core l trail last) (hy : 'y' ∉ core) (hlen : core.length < 10 ^ 94) (hx : ∀ c ∈ core, Vowel c ∨ Consonant c ∨ c = '\'') :
    (if (formOf ctx hc core l trail last nextLead).canBeRafsi then tryKaha (program .linked) ctx (formOf ctx hc core l trail last nextLead)
        else Except.ok ([], false)) = .ok (found, false) ↔
      found = (if (formOf ctx hc core l trail last nextLead).canBeRafsi then [(formOf ctx hc core l trail last nextLead).part] else []) ∧
      StemOk ctx.s core ∧ (trail = true ∨ last = true ∨ (∃ c, core.getLast? = some c ∧ Consonant c) → Unreadable ctx.s core) := by
  have hcne : core ≠ [] := by rintro rfl; have := he.eq; cases this
  have hcan := can_iff (ctx := ctx) (hc := hc) (nextLead := nextLead) he hx
  rw [← hcan]
  split
  · rename_i hcb
    rw [tryKaha_iff (f := formOf ctx hc core l trail last nextLead) hcne hy]
    have e : (formOf ctx hc core l trail last nextLead).partA = core ++ (if trail then s%"'" else []) ++ s%"a" := rfl
    have e2 : (formOf ctx hc core l trail last nextLead).partCopy = core := rfl
    rw [e, e2, stem_iff he hx hlen]
    simp [hcb]
    grind
  · rename_i hcb
    have : StemOk ctx.s core := by
      intro h
      exact absurd (hcan.2 (.inr (.inr h))) hcb
    simp [hcb, this]

theorem unreadable_succeeds {s : Settings} {x : Str} (hv : ∃ c, x.getLast? = some c ∧ Vowel c) (hy : 'y' ∉ x) :
    succeeds (jvokaha2 s.yHyphens s.allowMz x) = .ok false ↔ Unreadable s x := by
  obtain ⟨c, hc, hcv⟩ := hv
  have hne : x ≠ [] := by rintro rfl; cases hc
  rw [unreadable_iff hne hy]
  have hE : Errs caughtErrs (jvokaha2 s.yHyphens s.allowMz x) := caught_cut (fun _ => slice_no_y hy) fun _ h => by
    rw [loneR_last h] at hc
    cases hc
    revert hcv; decide
  cases hk : jvokaha2 s.yHyphens s.allowMz x with
  | ok ps => simp [succeeds]
  | error e =>
    have := hE e hk
    simp [caughtErrs] at this
    rcases this with rfl | rfl <;> simp [succeeds]

theorem zih_iff {ctx : ACtx} {hc last nextLead trail lead : Bool} {core : Str} {l : Char} {found : List Str}
    (he : Ending core l trail last) (hy : 'y' ∉ core) (hlen : core.length < 10 ^ 94) :
    (rafsiTarmi (core ++ (if trail then s%"'" else [])) ≠ .cvc ∧
      (if (formOf ctx hc core l trail last nextLead).canBeRafsi then tryKaha (program .linked) ctx (formOf ctx hc core l trail last nextLead)
        else Except.ok ([], false)) = .ok (found, false) ∧
      checkZihevlaOrRafsi (program .linked) ((formOf ctx hc core l trail last nextLead).requireCluster || !ctx.s.expRafsi) ctx.s.yHyphens
        ctx.s.expRafsi ctx.s.allowMz (formOf ctx hc core l trail last nextLead).part = .ok .zihevla ∧
      ((formOf ctx hc core l trail last nextLead).didAddA = true →
        succeeds (jvokaha2 ctx.s.yHyphens ctx.s.allowMz (formOf ctx hc core l trail last nextLead).part) = .ok false)) ↔
    found = (if (formOf ctx hc core l trail last nextLead).canBeRafsi then [(formOf ctx hc core l trail last nextLead).part] else []) ∧
    ZihevlaPart ctx.s last nextLead (hc = true) ⟨lead, core, trail, .zihevla, [core]⟩ := by
  have hv := whole_vowel (ctx := ctx) (hc := hc) (nextLead := nextLead) he
  have hl := whole_length (ctx := ctx) (hc := hc) (nextLead := nextLead) (l := l) (trail := trail) (last := last) hlen
  have hyw := whole_y (ctx := ctx) (hc := hc) (nextLead := nextLead) (l := l) (trail := trail) (last := last) hy
  have hchk := check_zihevla_iff (y := ctx.s.yHyphens) (req := (formOf ctx hc core l trail last nextLead).requireCluster || !ctx.s.expRafsi)
    (ex := ctx.s.expRafsi) (mz := ctx.s.allowMz) (by cases ctx.s.expRafsi <;> simp) hv hl
  have hadd : ((formOf ctx hc core l trail last nextLead).didAddA = true →
        succeeds (jvokaha2 ctx.s.yHyphens ctx.s.allowMz (formOf ctx hc core l trail last nextLead).part) = .ok false) ↔
      (trail = false → last = false → Unreadable ctx.s (core ++ s%"a")) := by
    rw [unreadable_succeeds hv hyw]
    unfold formOf
    cases trail <;> cases last <;> simp
  have hwh := whole_eq (ctx := ctx) (hc := hc) (core := core) (l := l) (trail := trail) (last := last) (nextLead := nextLead) (lead := lead)
    (k := .zihevla) (ps := [core])
  have hreq := needs_iff (ctx := ctx) (hc := hc) (core := core) (l := l) (trail := trail) (last := last) (nextLead := nextLead) (lead := lead)
    (k := .zihevla) (ps := [core])
  have hreq2 : ((formOf ctx hc core l trail last nextLead).requireCluster || !ctx.s.expRafsi) = true ↔
      NeedsCluster ctx.s last nextLead (hc = true) ⟨lead, core, trail, .zihevla, [core]⟩ ∨ ctx.s.expRafsi = false := by
    rw [Bool.or_eq_true, hreq]; simp
  rw [hadd, hchk, not_cvc_iff he, hreq2]
  constructor
  · rintro ⟨h1, h2, ⟨hS, hcl, hsy, htl, hns⟩, h4⟩
    have hx := core_letters hS
    obtain ⟨hf, hst, hun⟩ := (unread_iff he hy hlen hx).1 h2
    have htl := (together_iff hS hv hcl hl).1 htl
    rw [hwh] at hS hv hcl hsy htl hns
    exact ⟨hf, rfl, hun, hst, hS, hv, hcl, hsy, htl, hns, h4⟩
  · rintro ⟨hf, ⟨-, hun, hst, hS, hv', hcl, hsy, htl, hns, h4⟩⟩
    rw [← hwh] at hS hv' hcl hsy htl hns
    have hx := core_letters hS
    refine ⟨?_, (unread_iff he hy hlen hx).2 ⟨hf, hst, hun⟩, ⟨hS, hcl, hsy, (together_iff hS hv hcl hl).2 htl, hns⟩, h4⟩
    intro hcvc
    obtain ⟨a, b, c, e, -, -, hc'⟩ := tarmi_cvc.1 (pattern_cvc.1 hcvc)
    have := hun (.inr (.inr ⟨c, by show core.getLast? = _; rw [e]; rfl, (isConsonant_iff c).1 hc'⟩)) [core] (cvc_reading hcvc)
    simp at this

theorem exp_iff {ctx : ACtx} {hc last nextLead trail lead : Bool} {core : Str} {l : Char} {found : List Str}
    (he : Ending core l trail last) (hy : 'y' ∉ core) (hlen : core.length < 10 ^ 94) :
    (rafsiTarmi (core ++ (if trail then s%"'" else [])) ≠ .cvc ∧
      (if (formOf ctx hc core l trail last nextLead).canBeRafsi then tryKaha (program .linked) ctx (formOf ctx hc core l trail last nextLead)
        else Except.ok ([], false)) = .ok (found, false) ∧
      checkZihevlaOrRafsi (program .linked) ((formOf ctx hc core l trail last nextLead).requireCluster || !ctx.s.expRafsi) ctx.s.yHyphens
        ctx.s.expRafsi ctx.s.allowMz (formOf ctx hc core l trail last nextLead).part = .ok .rafsi) ↔
    found = [core] ∧ ExpPart ctx.s last nextLead (hc = true) ⟨lead, core, trail, .exp, [core]⟩ := by
  have hv := whole_vowel (ctx := ctx) (hc := hc) (nextLead := nextLead) he
  have hreq := needs_iff (ctx := ctx) (hc := hc) (core := core) (l := l) (trail := trail) (last := last) (nextLead := nextLead) (lead := lead)
    (k := .exp) (ps := [core])
  rw [not_cvc_iff he]
  have free : ¬ NeedsCluster ctx.s last nextLead (hc = true) ⟨lead, core, trail, .exp, [core]⟩ →
      (formOf ctx hc core l trail last nextLead).part = core ∧ (trail = true ∨ last = true) ∧
      (formOf ctx hc core l trail last nextLead).canBeRafsi = true := by
    intro h
    have : ¬ (trail = false ∧ last = false) := fun h' => h (.inl h')
    unfold formOf
    cases trail <;> cases last <;> simp at this ⊢
  constructor
  · rintro ⟨h1, h2, h3⟩
    cases hr : ((formOf ctx hc core l trail last nextLead).requireCluster || !ctx.s.expRafsi) with
    | true =>
      rw [hr] at h3
      have := check_required h3
      cases this
    | false =>
      rw [hr] at h3
      simp at hr
      have hn : ¬ NeedsCluster ctx.s last nextLead (hc = true) ⟨lead, core, trail, .exp, [core]⟩ := by
        rw [← hreq]; simp [hr.1]
      obtain ⟨e, htl, hcan⟩ := free hn
      rw [hr.2] at h3
      obtain ⟨hS, hco, hone⟩ := (check_exp_iff hv).1 h3
      have hx := core_letters hS
      obtain ⟨hf, hst, hun⟩ := (unread_iff he hy hlen hx).1 h2
      rw [hcan, if_pos rfl, e] at hf
      rw [e] at hS hv hco hone
      exact ⟨hf, rfl, hr.2, hn, hun (by rcases htl with h | h; exact .inl h; exact .inr (.inl h)), hS, hv, hco, hone⟩
  · rintro ⟨rfl, ⟨-, hex, hn, hun, hS, hv', hco, hone⟩⟩
    obtain ⟨e, htl, hcan⟩ := free hn
    have hr : (formOf ctx hc core l trail last nextLead).requireCluster = false := by
      rw [← hreq] at hn; simpa using hn
    have hS' : Sounds ctx.s.allowMz core := hS
    have hx := hS'.letters
    have hvl : Vowel l := by
      rcases htl with h | h
      · exact (he.trail h).2
      · exact he.last h
    refine ⟨?_, (unread_iff he hy hlen hx).2 ⟨by rw [hcan, if_pos rfl, e], ?_, fun _ => hun⟩, ?_⟩
    · intro hcvc
      exact hun [core] (cvc_reading hcvc) (by simp)
    · rintro ⟨c, h1, h2⟩
      rw [he.eq] at h1
      cases h1
      exact absurd h2 (vowel_not_consonant hvl)
    · rw [hr, hex, e]
      exact (check_exp_iff hv').2 ⟨hS', hco, hone⟩

end Jvotci
