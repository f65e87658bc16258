import Verif.Lemmas.ExtPart

/-!
# Helper lemmas: what the parts of an extended lujvo can be
-/

namespace Jvotci

open Spec

/-! ## Counting -/

theorem rafsi_known {mz : Bool} {p : Str} (h : Rafsi mz p) : rafsiTarmi p ≠ .other := by
  have := isValidRafsi_iff.2 h
  intro e
  unfold isValidRafsi at this
  rw [e] at this
  simp [Tarmi.score] at this

theorem rafsi_vowelRafsi {p : Str} (h : ConsonantInitial p) : (rafsiTarmi p = .cvv ∨ rafsiTarmi p = .cvhv) ↔ VowelRafsi p := by
  constructor
  · rintro (h | h)
    · obtain ⟨a, b, c, rfl, -, hb, hc⟩ := tarmi_cvv.1 h
      exact ⟨a, b, c, (isVowel_iff b).1 hb, (isVowel_iff c).1 hc, .inl rfl⟩
    · obtain ⟨a, b, c, rfl, -, hb, hc⟩ := tarmi_cvhv.1 h
      exact ⟨a, b, c, (isVowel_iff b).1 hb, (isVowel_iff c).1 hc, .inr rfl⟩
  · rintro ⟨c, a, b, ha, hb, rfl | rfl⟩
    · exact .inl (tarmi_cvv.2 ⟨c, a, b, rfl, (isConsonant_iff c).2 h, (isVowel_iff a).2 ha, (isVowel_iff b).2 hb⟩)
    · exact .inr (tarmi_cvhv.2 ⟨c, a, b, rfl, (isConsonant_iff c).2 h, (isVowel_iff a).2 ha, (isVowel_iff b).2 hb⟩)

theorem rafsi_consonantInitial {mz : Bool} {p : Str} (h : Rafsi mz p) : ConsonantInitial p := by
  obtain ⟨a, t, rfl, ha⟩ := rafsi_first h
  exact (isConsonant_iff a).1 ha

theorem countFound_reading : ∀ {ps : List Str} {n : Nat} {c : Bool}, (∀ p ∈ ps, p = s%"r" ∨ p = s%"n" ∨ ∃ mz, Rafsi mz p) →
    ((countFound ps (n, c)).2 = true ↔ c = true ∨ ∃ p ∈ ps, ¬ VowelRafsi p) ∧
    ((∀ p ∈ ps, VowelRafsi p) → (countFound ps (n, c)).1 = n + ps.length) := by
  intro ps
  induction ps with
  | nil => intro n c _; simp [countFound]
  | cons p ps ih =>
    intro n c h
    have hp := h p (by simp)
    have hps : ∀ p ∈ ps, p = s%"r" ∨ p = s%"n" ∨ ∃ mz, Rafsi mz p := fun q hq => h q (by simp [hq])
    have hv : VowelRafsi p ↔ (rafsiTarmi p = .cvv ∨ rafsiTarmi p = .cvhv) := by
      rcases hp with rfl | rfl | ⟨mz, hp⟩
      · exact (rafsi_vowelRafsi (by decide)).symm
      · exact (rafsi_vowelRafsi (by decide)).symm
      · exact (rafsi_vowelRafsi (rafsi_consonantInitial hp)).symm
    have ho : rafsiTarmi p ≠ .other := by
      rcases hp with rfl | rfl | ⟨mz, hp⟩
      · decide
      · decide
      · exact rafsi_known hp
    have step : (VowelRafsi p → countFound (p :: ps) (n, c) = countFound ps (n + 1, c)) ∧
        (¬ VowelRafsi p → countFound (p :: ps) (n, c) = countFound ps (n + 2, true)) := by
      rw [hv]
      conv in countFound (p :: ps) (n, c) => unfold countFound
      conv in countFound (p :: ps) (n, c) => unfold countFound
      split <;> simp_all
    by_cases hvp : VowelRafsi p
    · rw [step.1 hvp]
      obtain ⟨h1, h2⟩ := ih (n := n + 1) (c := c) hps
      rw [h1]
      refine ⟨by simp [hvp], fun h => ?_⟩
      rw [h2 fun q hq => h q (by simp [hq])]
      simp; omega
    · rw [step.2 hvp]
      obtain ⟨h1, h2⟩ := ih (n := n + 2) (c := true) hps
      rw [h1]
      refine ⟨by simp [hvp], fun h => absurd (h p (by simp)) hvp⟩

theorem reading_known {y : YHyphens} {mz : Bool} {ps : List Str} (h : Reading y mz ps) (hy : 'y' ∉ ps.flatten) :
    ∀ p ∈ ps, p = s%"r" ∨ p = s%"n" ∨ ∃ mz, Rafsi mz p := by
  intro p hp
  rcases reading_pieces h p hp with hh | hr
  · rcases hyphen_no_y hh (fun h => hy (List.mem_flatten.2 ⟨p, hp, h⟩)) with rfl | rfl
    · exact .inl rfl
    · exact .inr (.inl rfl)
  · exact .inr (.inr ⟨mz, hr⟩)

theorem reading_single {y : YHyphens} {mz : Bool} {ps : List Str} (h : Reading y mz ps) (hl : ps.flatten.length ≤ 5) : ps = [ps.flatten] := by
  obtain ⟨p, hp, hr⟩ := h.first
  obtain ⟨u, q, e, hq⟩ := reading_last h
  cases u with
  | nil => rw [e]; simp
  | cons p' u =>
    exfalso
    rw [e] at hp hl
    simp at hp
    subst hp
    have h1 := rafsi_length hr
    have h2 := rafsi_length hq
    simp at hl
    omega

/-! ## The form of a part -/

/-- What `partForm` says about a part that is `core`, with an apostrophe if `trail`; `l` is the last letter. -/
def formOf (ctx : ACtx) (hc : Bool) (core : Str) (l : Char) (trail last nextLead : Bool) : PartForm where
  part := core ++ (if !trail && !last then s%"a" else [])
  partCopy := core
  partA := core ++ (if trail then s%"'" else []) ++ s%"a"
  canBeRafsi := trail || last || !isVowel l
  requireCluster := (!trail && !last) || (trail && decide (ctx.s.yHyphens = .standard ∧ hc = false ∧ nextLead = false))
  didAddA := !trail && !last
  trailingH := trail

/-- The circumstances of a part. -/
structure Around (ctx : ACtx) (i : Nat) (last nextLead : Bool) : Prop where
  last : last = true ↔ ¬ i + 1 < ctx.yParts.length ∧ ctx.isCmevlatai = false
  next : i + 1 < ctx.yParts.length → ∃ q, ctx.yParts[i + 1]? = some q ∧ q ≠ [] ∧ (nextLead = true ↔ q.head? = some '\'')

/-- The end of a part. -/
structure Ending (core : Str) (l : Char) (trail last : Bool) : Prop where
  eq : core.getLast? = some l
  apos : l ≠ '\''
  trail : trail = true → last = false ∧ Vowel l
  last : last = true → Vowel l

theorem form_of {ctx : ACtx} {i : Nat} {hc last nextLead trail : Bool} {core : Str} {l : Char} (ha : Around ctx i last nextLead)
    (he : Ending core l trail last) (hT : trail = true → i + 1 < ctx.yParts.length) :
    partForm ctx i hc (core ++ (if trail then s%"'" else [])) = .ok (formOf ctx hc core l trail last nextLead) := by
  cases trail with
  | true =>
    obtain ⟨h1, h2⟩ := he.trail rfl
    subst h1
    have hi : i + 1 < ctx.yParts.length := hT rfl
    rw [if_pos rfl, form_trail he.eq h2 hi (ha.next hi)]
    simp [formOf]
  | false =>
    rw [if_neg (by simp), List.append_nil]
    cases last with
    | false =>
      have hi : i + 1 < ctx.yParts.length ∨ ctx.isCmevlatai = true := by
        by_cases h : i + 1 < ctx.yParts.length
        · exact .inl h
        · cases hc : ctx.isCmevlatai with
          | true => exact .inr rfl
          | false =>
            have := ha.last.2 ⟨h, hc⟩
            cases this
      rw [form_middle he.eq he.apos hi]
      simp [formOf]
    | true =>
      rw [form_final (ha.last.1 rfl).2 he.eq he.apos (ha.last.1 rfl).1]
      simp [formOf]

theorem form_only {ctx : ACtx} {i : Nat} {hc last nextLead : Bool} {part : Str} {f : PartForm} (ha : Around ctx i last nextLead)
    (hv : ¬ i + 1 < ctx.yParts.length → ∃ c, part.getLast? = some c ∧ if ctx.isCmevlatai then Consonant c else Vowel c)
    (h : partForm ctx i hc part = .ok f) : ∃ core l trail, part = core ++ (if trail then s%"'" else []) ∧ Ending core l trail last ∧
      (trail = true → i + 1 < ctx.yParts.length) ∧ f = formOf ctx hc core l trail last nextLead := by
  have h0 := h
  obtain ⟨e1, e2, e3, e4, e5, e6, e7, e8, hne⟩ := partForm_ok h
  have hT : f.trailingH = true → i + 1 < ctx.yParts.length := by
    intro hT
    apply Classical.byContradiction
    intro hi
    obtain ⟨c, hc, hcv⟩ := hv hi
    rw [e1, hT] at hc
    simp at hc
    subst hc
    split at hcv
    · exact apos_not_consonant hcv
    · exact apos_not_vowel hcv
  have hv : last = true → ∃ c, part.getLast? = some c ∧ Vowel c := by
    intro hL
    obtain ⟨h1, h2⟩ := ha.last.1 hL
    have := hv h1
    rw [h2] at this
    exact this
  have key : ∃ l, Ending f.partCopy l f.trailingH last := by
    cases hT : f.trailingH with
    | true =>
      obtain ⟨l, hl, hlv⟩ := e5 hT
      have hlv := (isVowel_iff l).1 hlv
      refine ⟨l, hl, by rintro rfl; exact apos_not_vowel hlv, fun _ => ⟨?_, hlv⟩, fun _ => hlv⟩
      cases hL : last with
      | false => rfl
      | true =>
        obtain ⟨c, hc, hcv⟩ := hv hL
        rw [e1, hT] at hc
        simp at hc
        subst hc
        exact absurd hcv apos_not_vowel
    | false =>
      rw [hT] at e1
      simp at e1
      have hn := e6 hT
      rw [e1] at hn hne
      obtain ⟨l, hl⟩ : ∃ l, f.partCopy.getLast? = some l := ⟨_, List.getLast?_eq_some_getLast hne⟩
      refine ⟨l, hl, by rintro rfl; exact hn hl, by simp, fun hL => ?_⟩
      obtain ⟨c, hc, hcv⟩ := hv hL
      rw [e1, hl] at hc
      cases hc
      exact hcv
  obtain ⟨l, hE⟩ := key
  refine ⟨f.partCopy, l, f.trailingH, e1, hE, hT, ?_⟩
  have := form_of (hc := hc) ha hE hT
  rw [← e1, h0] at this
  exact Except.ok.inj this

theorem ending_consonant {core : Str} {l : Char} {trail last : Bool} (he : Ending core l trail last)
    (hx : ∀ c ∈ core, Vowel c ∨ Consonant c ∨ c = '\'') (h : isVowel l = false) : Consonant l := by
  rcases hx l (getLast_mem he.eq) with h1 | h1 | h1
  · rw [(isVowel_iff l).2 h1] at h; cases h
  · exact h1
  · exact absurd h1 he.apos

theorem needs_iff {ctx : ACtx} {hc : Bool} {core : Str} {l : Char} {trail last nextLead lead : Bool} {k : PartKind} {ps : List Str} :
    (formOf ctx hc core l trail last nextLead).requireCluster = true ↔
      NeedsCluster ctx.s last nextLead (hc = true) ⟨lead, core, trail, k, ps⟩ := by
  unfold formOf NeedsCluster
  cases trail <;> cases last <;> simp <;> grind

theorem whole_eq {ctx : ACtx} {hc : Bool} {core : Str} {l : Char} {trail last nextLead lead : Bool} {k : PartKind} {ps : List Str} :
    (formOf ctx hc core l trail last nextLead).part = YPart.whole ⟨lead, core, trail, k, ps⟩ last := by
  unfold formOf YPart.whole
  cases trail <;> cases last <;> simp

/-- A missing a: what tools.py:368-375 excludes. -/
theorem stem_iff {ctx : ACtx} {core : Str} {l : Char} {trail last : Bool} (he : Ending core l trail last)
    (hx : ∀ c ∈ core, Vowel c ∨ Consonant c ∨ c = '\'') (hlen : core.length < 10 ^ 94) :
    stemCheck ctx (core ++ (if trail then s%"'" else []) ++ s%"a") = .ok () ↔ StemOk ctx.s core := by
  cases trail with
  | true =>
    simp only [if_true, stemCheck_trail, true_iff]
    rintro ⟨c, hc, hcc⟩
    rw [he.eq] at hc
    cases hc
    exact absurd hcc (vowel_not_consonant (he.trail rfl).2)
  | false =>
    simp only [Bool.false_eq_true, if_false, List.append_nil]
    refine stemCheck_iff hx ⟨l, he.eq, ?_⟩ hlen
    rcases hx l (getLast_mem he.eq) with h1 | h1 | h1
    · exact .inl h1
    · exact .inr h1
    · exact absurd h1 he.apos

theorem not_cvc_iff {core : Str} {l : Char} {trail last : Bool} (he : Ending core l trail last) :
    rafsiTarmi (core ++ (if trail then s%"'" else [])) ≠ .cvc ↔ pattern core ≠ s%"CVC" := by
  cases trail with
  | true =>
    constructor
    · rintro - h
      obtain ⟨a, b, c, rfl, -, -, hc⟩ := tarmi_cvc.1 (pattern_cvc.1 h)
      have := he.eq
      simp at this
      subst this
      exact vowel_not_consonant (he.trail rfl).2 ((isConsonant_iff _).1 hc)
    · rintro - h
      obtain ⟨a, b, c, e, -, -, hc⟩ := tarmi_cvc.1 h
      have := congrArg List.getLast? e
      simp at this
      subst this
      revert hc; decide
  | false => simp [pattern_cvc]

/-! ## Rafsi -/

theorem kaha_iff {ctx : ACtx} {i : Nat} {hc last nextLead trail lead : Bool} {core : Str} {l : Char} {found : List Str} {n : Nat}
    (ha : Around ctx i last nextLead) (he : Ending core l trail last) (hy : 'y' ∉ core) (hlen : core.length < 10 ^ 94)
    (h0 : i = 0 → ctx.yParts[0]? = some (core ++ (if trail then s%"'" else [])) ∧ 2 ≤ ctx.yParts.length) :
    (rafsiTarmi (core ++ (if trail then s%"'" else [])) ≠ .cvc ∧
      (if (formOf ctx hc core l trail last nextLead).canBeRafsi then tryKaha (program .linked) ctx (formOf ctx hc core l trail last nextLead)
        else Except.ok ([], false)) = .ok (found, true) ∧
      ¬ ((rafsiTarmi (formOf ctx hc core l trail last nextLead).part = .cvv ∨ rafsiTarmi (formOf ctx hc core l trail last nextLead).part = .cvhv) ∧
          (formOf ctx hc core l trail last nextLead).requireCluster ∧ !(countFound found (n, hc)).2 ∧ !ctx.isCmevlatai ∧
          (ctx.s.yHyphens = .standard ∨
            ¬ (i + 2 = ctx.yParts.length ∧
                (rafsiTarmi ((ctx.yParts[1]?).getD []) = .cvv ∨
                 rafsiTarmi ((ctx.yParts[1]?).getD []) = .ccv)))) ∧
      (if i = 0 then tosmabruTest (program .linked) ctx (formOf ctx hc core l trail last nextLead) else Except.ok ()) = .ok ()) ↔
    RafsiPart ctx.s ctx.isCmevlatai (decide (i = 0)) last nextLead (hc = true) ⟨lead, core, trail, .rafsi, found⟩ := by
  have hcne : core ≠ [] := by rintro rfl; have := he.eq; cases this
  have hlast0 : i = 0 → last = false := by
    intro hi
    cases hL : last with
    | false => rfl
    | true => have := (ha.last.1 hL).1; have := (h0 hi).2; omega
  rw [not_cvc_iff he]
  by_cases hread : Reading ctx.s.yHyphens ctx.s.allowMz found ∧ found.flatten = core
  · obtain ⟨hr, hf⟩ := hread
    have hx : ∀ c ∈ core, Vowel c ∨ Consonant c ∨ c = '\'' := by
      rw [← hf]; exact reading_piece_letters hr (by rw [hf]; exact hy)
    have hci : ConsonantInitial core := by
      obtain ⟨p, hp, hrp⟩ := hr.first
      cases found with
      | nil => cases hp
      | cons q found =>
        cases hp
        obtain ⟨a, t, rfl, hac⟩ := rafsi_first hrp
        rw [← hf]
        exact (isConsonant_iff a).1 hac
    have hkaha : (if (formOf ctx hc core l trail last nextLead).canBeRafsi then tryKaha (program .linked) ctx (formOf ctx hc core l trail last nextLead)
        else Except.ok ([], false)) = .ok (found, true) ↔
        StemOk ctx.s core ∧ (trail = false → last = false → ∃ c, core.getLast? = some c ∧ Consonant c) := by
      have hcan : (formOf ctx hc core l trail last nextLead).canBeRafsi = true ↔
          (trail = false → last = false → ∃ c, core.getLast? = some c ∧ Consonant c) := by
        have : (formOf ctx hc core l trail last nextLead).canBeRafsi = (trail || last || !isVowel l) := rfl
        rw [this]
        constructor
        · rintro h rfl rfl
          exact ⟨l, he.eq, ending_consonant he hx (by simpa using h)⟩
        · intro h
          cases trail <;> cases last <;> simp at h ⊢
          obtain ⟨c, h1, h2⟩ := h
          rw [he.eq] at h1
          cases h1
          cases hv : isVowel l with
          | false => rfl
          | true => exact absurd h2 (vowel_not_consonant ((isVowel_iff l).1 hv))
      rw [← hcan]
      split
      · rename_i hcb
        rw [tryKaha_iff (f := formOf ctx hc core l trail last nextLead) hcne hy]
        have e : (formOf ctx hc core l trail last nextLead).partA = core ++ (if trail then s%"'" else []) ++ s%"a" := rfl
        have e2 : (formOf ctx hc core l trail last nextLead).partCopy = core := rfl
        rw [e, e2, stem_iff he hx hlen]
        simp [hr, hf, hcb]
      · rename_i hcb
        simp [hcb]
    rw [hkaha]
    have hfall : (trail = false → last = false → ∃ c, core.getLast? = some c ∧ Consonant c) →
        (((rafsiTarmi (formOf ctx hc core l trail last nextLead).part = .cvv ∨ rafsiTarmi (formOf ctx hc core l trail last nextLead).part = .cvhv) ∧
          (formOf ctx hc core l trail last nextLead).requireCluster ∧ !(countFound found (n, hc)).2 ∧ !ctx.isCmevlatai ∧
          (ctx.s.yHyphens = .standard ∨
            ¬ (i + 2 = ctx.yParts.length ∧
                (rafsiTarmi ((ctx.yParts[1]?).getD []) = .cvv ∨
                 rafsiTarmi ((ctx.yParts[1]?).getD []) = .ccv)))) ↔
        (ctx.isCmevlatai = false ∧ VowelRafsi core ∧ trail = true ∧ ctx.s.yHyphens = .standard ∧ nextLead = false ∧ hc = false)) := by
      intro hend
      cases trail with
      | false =>
        simp only [Bool.false_eq_true, false_and, and_false, iff_false]
        rintro ⟨ht, hrc, -⟩
        cases last with
        | true => simp [formOf] at hrc
        | false =>
          obtain ⟨c, h1, h2⟩ := hend rfl rfl
          rcases ht with ht | ht
          · obtain ⟨x, y, z, e, -, hv, -⟩ := tarmi_cvv.1 ht
            have e : core ++ s%"a" = [x, y, z] := e
            have : core = [x, y] := List.append_cancel_right (bs := s%"a") (by
              have := congrArg List.getLast? e
              simp at this
              rw [e, ← this]; rfl)
            rw [this] at h1
            simp at h1
            subst h1
            exact vowel_not_consonant ((isVowel_iff _).1 hv) h2
          · obtain ⟨x, y, z, e, -, hv, -⟩ := tarmi_cvhv.1 ht
            have e : core ++ s%"a" = [x, y, '\'', z] := e
            have : core = [x, y, '\''] := List.append_cancel_right (bs := s%"a") (by
              have := congrArg List.getLast? e
              simp at this
              rw [e, ← this]; rfl)
            rw [this] at h1
            simp at h1
            subst h1
            exact apos_not_consonant h2
      | true =>
        have e1 : (formOf ctx hc core l true last nextLead).part = core := by simp [formOf]
        have e2 : (formOf ctx hc core l true last nextLead).requireCluster = decide (ctx.s.yHyphens = .standard ∧ hc = false ∧ nextLead = false) := by simp [formOf]
        rw [e1, e2, rafsi_vowelRafsi hci]
        constructor
        · rintro ⟨h1, h2, -, hcm, -⟩
          simp at h2
          exact ⟨by simpa using hcm, h1, rfl, h2.1, h2.2.2, h2.2.1⟩
        · rintro ⟨hcm, h1, -, h3, h4, h5⟩
          have hl5 : core.length ≤ 5 := by
            obtain ⟨c, a, b, -, -, e | e⟩ := h1 <;> rw [e] <;> simp
          have hfs := reading_single hr (by rw [hf]; exact hl5)
          rw [hf] at hfs
          have := (countFound_reading (ps := found) (n := n) (c := hc) (reading_known hr (by rw [hf]; exact hy))).1
          refine ⟨h1, by simp [h3, h4, h5], ?_, by simp [hcm], .inl h3⟩
          cases hcf : (countFound found (n, hc)).2 with
          | false => rfl
          | true =>
            rcases this.1 hcf with h | ⟨p, hp, h⟩
            · rw [h5] at h; cases h
            · rw [hfs] at hp
              simp at hp
              rw [hp] at h
              exact absurd h1 h
    have htos : (trail = false → last = false → ∃ c, core.getLast? = some c ∧ Consonant c) →
        ((if i = 0 then tosmabruTest (program .linked) ctx (formOf ctx hc core l trail last nextLead) else Except.ok ()) = .ok () ↔
          (i = 0 → ¬ FallsOff ctx.s core)) := by
      intro hend
      split
      · rename_i hi
        have hL := hlast0 hi
        subst hL
        rw [tosmabru_iff (f := formOf ctx hc core l trail false nextLead) hr hf hy hlen rfl]
        · simp [hi]
        · intro h
          have h : (!trail && !false) = true := h
          simp at h
          exact hend h rfl
        · intro h
          have h : (!trail && !false) = false := h
          simp at h
          subst h
          exact ⟨⟨l, he.eq, (he.trail rfl).2⟩, by simpa using (h0 hi).1⟩
      · rename_i hi; simp [hi]
    constructor
    · rintro ⟨h1, ⟨h2, h3⟩, h4, h5⟩
      rw [hfall h3] at h4
      rw [htos h3] at h5
      refine ⟨hr, hf, h1, h3, h2, ?_, by simpa using h5⟩
      intro z a b c d
      apply Classical.byContradiction
      intro hcc
      exact h4 ⟨z, a, b, c, d, by simpa using hcc⟩
    · rintro ⟨-, -, h1, h3, h2, h4, h5⟩
      refine ⟨h1, ⟨h2, h3⟩, ?_, (htos h3).2 (by simpa using h5)⟩
      rw [hfall h3]
      rintro ⟨z, a, b, c, d, e⟩
      have := h4 z a b c d
      rw [e] at this
      cases this
  · constructor
    · rintro ⟨-, h, -⟩
      exfalso
      split at h
      · rw [tryKaha_iff (f := formOf ctx hc core l trail last nextLead) hcne hy] at h
        rcases h.2 with ⟨-, h⟩ | ⟨h, -⟩
        · exact hread h
        · cases h
      · cases h
    · intro h
      exact absurd ⟨h.reading, h.core⟩ hread

end Jvotci
