import Verif.Lemmas.Compound

/-!
# Helper lemmas: the pieces of a compound word, part by part
-/

namespace Jvotci

open Spec

/-- The rule for `r` and `n` between two consecutive pieces. -/
def RnOk (p q : Str) : Prop :=
  ((q = s%"r" ∨ q = s%"n") → rafsiTarmi p = .cvv ∨ rafsiTarmi p = .cvhv) ∧
  (p = s%"n" → q.head? = some 'r') ∧
  (p = s%"r" → ∃ c, q.head? = some c ∧ Consonant c ∧ c ≠ 'r')

theorem Chop.nonempty {y : YHyphens} {mz : Bool} {prev : Option Str} {ps : List Str} (h : Chop y mz prev ps) :
    [] ∉ ps := by
  intro hm
  rcases h.mem [] hm with ⟨h, -⟩ | h | h | h | h <;> simp at h

theorem Chop.rn {y : YHyphens} {mz : Bool} {prev : Option Str} {ps : List Str} (h : Chop y mz prev ps)
    (hn : prev = some s%"n" → ∃ t, join ps = 'r' :: t)
    (hr : prev = some s%"r" → ∃ c t, join ps = c :: t ∧ Consonant c ∧ c ≠ 'r') :
    PAdj RnOk (prev.toList ++ ps) := by
  induction h with
  | @nil prev => cases prev <;> trivial
  | @y p ps hl _ ih =>
    refine ⟨⟨by simp, ?_, ?_⟩, ih (by simp) (by simp)⟩
    · rintro rfl; simp at hl
    · rintro rfl; simp at hl
  | @n p ps t hl _ ht hj _ ih =>
    refine ⟨⟨fun _ => ht, ?_, ?_⟩, ih (fun _ => ⟨t, hj⟩) (by simp)⟩
    · rintro rfl; simp at hl
    · rintro rfl; simp at hl
  | @r p ps c t hl _ ht hj hcc hcr _ ih =>
    refine ⟨⟨fun _ => ht, ?_, ?_⟩, ih (by simp) (fun _ => ⟨c, t, hj, (isConsonant_iff c).1 hcc, hcr⟩)⟩
    · rintro rfl; simp at hl
    · rintro rfl; simp at hl
  | @hy p ps hl _ _ ih =>
    refine ⟨⟨by simp, ?_, ?_⟩, ih (by simp) (by simp)⟩
    · rintro rfl; simp at hl
    · rintro rfl; simp at hl
  | @rafsi prev p ps hc _ ih =>
    have hlen := hc.length_pos
    have h1 : PAdj RnOk (p :: ps) := by
      refine ih ?_ ?_
      · intro e; cases e; simp at hlen
      · intro e; cases e; simp at hlen
    cases prev with
    | none => exact h1
    | some q =>
      have hhead : ∀ c t, join (p :: ps) = c :: t → p.head? = some c := by
        intro c t e
        cases p with
        | nil => simp at hlen
        | cons a p => simp [join] at e; simp [e.1]
      refine ⟨⟨?_, ?_, ?_⟩, h1⟩
      · rintro (rfl | rfl) <;> simp at hlen
      · rintro rfl
        obtain ⟨t, e⟩ := hn rfl
        exact hhead _ _ e
      · rintro rfl
        obtain ⟨c, t, e, h2⟩ := hr rfl
        exact ⟨c, hhead _ _ e, h2⟩

theorem Chop.forceY {y : YHyphens} {mz : Bool} {prev : Option Str} {ps : List Str} (h : Chop y mz prev ps) (hy : y = .forceY) :
    s%"r" ∉ ps ∧ s%"n" ∉ ps := by
  induction h with
  | nil => simp
  | y _ _ ih => simpa using ih
  | n _ h => exact absurd hy h
  | r _ h => exact absurd hy h
  | hy _ _ _ ih => simpa using ih
  | rafsi hc _ ih =>
    have hlen := hc.length_pos
    refine ⟨?_, ?_⟩
    · intro hm
      rcases List.mem_cons.1 hm with e | hm
      · rw [← e] at hlen; simp at hlen
      · exact ih.1 hm
    · intro hm
      rcases List.mem_cons.1 hm with e | hm
      · rw [← e] at hlen; simp at hlen
      · exact ih.2 hm

theorem Chop.standard {y : YHyphens} {mz : Bool} {prev : Option Str} {ps : List Str} (h : Chop y mz prev ps) (hy : y = .standard) :
    s%"'y" ∉ ps := by
  induction h with
  | nil => simp
  | y _ _ ih => simpa using ih
  | n _ _ _ _ _ ih => simpa using ih
  | r _ _ _ _ _ _ _ ih => simpa using ih
  | hy _ h => exact absurd hy h
  | rafsi hc _ ih =>
    have hlen := hc.length_pos
    intro hm
    rcases List.mem_cons.1 hm with e | hm
    · rw [← e] at hlen; simp at hlen
    · exact ih hm

/-- A sane list of pieces. -/
structure Sane (y : YHyphens) (ps : List Str) : Prop where
  ne : ps ≠ []
  nonempty : [] ∉ ps
  first : ∀ p, ps.head? = some p → ¬ Hyphen p
  last : ∀ p, ps.getLast? = some p → ¬ Hyphen p
  two : PAdj NotBothHyphens ps
  rn : PAdj RnOk ps
  forceY : y = .forceY → s%"r" ∉ ps ∧ s%"n" ∉ ps

theorem Chop.sane {y : YHyphens} {mz : Bool} {ps : List Str} (h : Chop y mz none ps) (hne : ps ≠ [])
    (hp : PAdj PairMade ps) (hy : (join ps).getLast? ≠ some 'y') : Sane y ps where
  ne := hne
  nonempty := h.nonempty
  first := by
    intro p e
    cases ps with
    | nil => cases e
    | cons q ps => cases e; exact rafsi_not_hyphen h.head.1.rafsi
  last := fun p e => rafsi_not_hyphen (h.last e hy)
  two := by simpa using h.hyphens (by simpa using hp) (by simp)
  rn := by simpa using h.rn (by simp) (by simp)
  forceY := h.forceY

theorem Sane.single {y : YHyphens} {p : Str} (h1 : p ≠ []) (h2 : ¬ Hyphen p) : Sane y [p] where
  ne := by simp
  nonempty := by simpa using h1.symm
  first := by intro q e; cases e; exact h2
  last := by intro q e; cases e; exact h2
  two := trivial
  rn := trivial
  forceY := by
    intro _
    simp only [List.mem_singleton]
    constructor <;> rintro rfl <;> exact h2 (by decide)

theorem Sane.glue {y : YHyphens} {u v : List Str} {h : Str} (hu : Sane y u) (hv : Sane y v)
    (hh : h = s%"y" ∨ h = s%"'y" ∨ h = s%"y'" ∨ h = s%"'y'") : Sane y (u ++ [h] ++ v) where
  ne := by simp
  nonempty := by
    simp only [List.mem_append, List.mem_singleton]
    rintro ((hm | hm) | hm)
    · exact hu.nonempty hm
    · subst hm; simp at hh
    · exact hv.nonempty hm
  first := by
    intro p e
    cases u with
    | nil => exact absurd rfl hu.ne
    | cons a u => exact hu.first p (by simpa using e)
  last := by
    intro p e
    rw [List.getLast?_append] at e
    cases hvl : v.getLast? with
    | none => rw [List.getLast?_eq_none_iff] at hvl; exact absurd hvl hv.ne
    | some q => rw [hvl] at e; cases e; exact hv.last _ hvl
  two := by
    refine PAdj.append (PAdj.append hu.two trivial ?_) hv.two ?_
    · intro a b ha _ hab; exact hu.last a ha hab.1
    · intro a b _ hb hab; exact hv.first b hb hab.2
  rn := by
    refine PAdj.append (PAdj.append hu.rn trivial ?_) hv.rn ?_
    · intro a b ha hb
      cases hb
      refine ⟨?_, ?_, ?_⟩
      · rintro (rfl | rfl) <;> simp at hh
      · rintro rfl; exact absurd (by decide) (hu.last _ ha)
      · rintro rfl; exact absurd (by decide) (hu.last _ ha)
    · intro a b ha hb
      have ha : h = a := by simpa [List.getLast?_append] using ha
      subst ha
      refine ⟨?_, ?_, ?_⟩
      · rintro (rfl | rfl) <;> exact absurd (by decide) (hv.first _ hb)
      · rintro rfl; simp at hh
      · rintro rfl; simp at hh
  forceY := by
    intro e
    have h1 := hu.forceY e
    have h2 := hv.forceY e
    simp only [List.mem_append, List.mem_singleton]
    constructor
    · rintro ((hm | hm) | hm)
      · exact h1.1 hm
      · subst hm; simp at hh
      · exact h2.1 hm
    · rintro ((hm | hm) | hm)
      · exact h1.2 hm
      · subst hm; simp at hh
      · exact h2.2 hm

theorem partForm_require {ctx : ACtx} {i : Nat} {hc : Bool} {part : Str} {f : PartForm}
    (h : partForm ctx i hc part = .ok f) : f.didAddA = true → f.requireCluster = true := by
  unfold partForm at h
  dsimp only at h
  obtain ⟨l, hl, h⟩ := bind_ok h
  split at h
  · obtain ⟨rc, hrc, h⟩ := bind_ok h
    obtain ⟨l', hlast, h⟩ := bind_ok h
    split at h
    · cases h
    · cases h; simp
  · split at h
    · cases h; simp
    · cases h; simp

/-- No hyphen without `y` but `r` and `n`. -/
theorem hyphen_no_y {p : Str} (h : Hyphen p) (hy : 'y' ∉ p) : p = s%"r" ∨ p = s%"n" := by
  simp only [Hyphen, List.mem_cons, List.not_mem_nil, or_false] at h
  rcases h with rfl | rfl | rfl | rfl | rfl | rfl <;> simp at hy ⊢

theorem pairMade_no_y {ps : List Str} (h : 'y' ∉ join ps) : PAdj PairMade ps := by
  apply PAdj.of_mem
  intro a b hb
  have hby : 'y' ∉ b := by
    intro hm
    exact h (List.mem_flatten.2 ⟨b, hb, hm⟩)
  refine .inr (.inr (.inr (.inr ⟨?_, ?_⟩)))
  · rintro rfl; simp at hby
  · rintro (rfl | rfl) <;> simp at hby

/-- One pass through the loop over the parts. -/
theorem analysePart_group {R : Rec} {ctx : ACtx} {i : Nat} {part0 : Str} {st st' : AState}
    (h : analysePart R ctx i part0 st = .ok st') (hy : 'y' ∉ part0)
    (hl : ¬ (i + 1 < ctx.yParts.length ∨ ctx.isCmevlatai = true) → ∃ l, part0.getLast? = some l ∧ Vowel l) :
    ∃ lead G, st'.resultParts = withHyphen i st lead ++ G ∧ (st'.nextHyphen = [] ∨ st'.nextHyphen = s%"'") ∧
      (lead = true → part0.head? = some '\'') ∧ Sane ctx.s.yHyphens G ∧
      WF ctx.s.allowMz part0 ∧ AdjAll AposOk part0 := by
  obtain ⟨part, lead, hs, hcase⟩ := analysePart_ok h
  obtain ⟨hne, h0, hlead, hnl⟩ := stripLeadingH_ok hs
  have hyp : 'y' ∉ part := by
    intro hm; apply hy; rw [h0]; cases lead <;> simp [hm]
  have hleadh : lead = true → part0.head? = some '\'' := by
    intro e; rw [h0, e]; simp
  -- from the part without apostrophes to the part
  have wrap : ∀ (pc : Str) (tr : Bool), part = pc ++ (if tr then s%"'" else []) → pc ≠ [] →
      (tr = true → ∃ l, pc.getLast? = some l ∧ Vowel l) →
      WF ctx.s.allowMz pc → AdjAll AposOk pc → WF ctx.s.allowMz part0 ∧ AdjAll AposOk part0 := by
    intro pc tr e hpc htr hwf hap
    have h1 : WF ctx.s.allowMz part ∧ AdjAll AposOk part := by
      cases tr with
      | false => simp at e; rw [e]; exact ⟨hwf, hap⟩
      | true =>
        simp only [if_true] at e
        obtain ⟨l, hl, hv⟩ := htr rfl
        rw [e]
        refine ⟨WF.append hwf (WF.single (.inr (.inr (.inl rfl)))) ?_, adjAll_append.2 ⟨hap, adjAll_single, ?_⟩⟩
        · intro a b _ hb; cases hb; right; decide
        · intro a b ha hb
          rw [hl] at ha; cases ha; cases hb
          exact (madeOk_vh hv).1
    cases lead with
    | false => simp at h0; rw [h0]; exact h1
    | true =>
      simp only [if_true] at h0
      obtain ⟨v, t, e', hv⟩ := hlead rfl
      rw [h0]
      refine ⟨WF.cons (.inr (.inr (.inl rfl))) (by decide) h1.1, ?_⟩
      rw [e'] at h1 ⊢
      exact adjAll_cons.2 ⟨(madeOk_hv ((isVowel_iff v).1 hv)).1, h1.2⟩
  rcases hcase with ⟨hcvc, rfl⟩ | ⟨-, c0, f, found, did, hc0, hf, hfd, hcase⟩
  · obtain ⟨a, b, c, rfl, ha, hb, hc⟩ := tarmi_cvc.1 hcvc
    have hr : Rafsi ctx.s.allowMz [a, b, c] := .cvc ((isConsonant_iff a).1 ha) ((isVowel_iff b).1 hb) ((isConsonant_iff c).1 hc)
    refine ⟨lead, [[a, b, c]], rfl, .inl rfl, hleadh, Sane.single (by simp) (rafsi_not_hyphen hr), ?_⟩
    refine wrap [a, b, c] false (by simp) (by simp) (by simp) ?_ (adjAll_mono (rafsi_made hr) (fun _ _ h => h.1))
    have := Cuts.wf (mz := ctx.s.allowMz) (Cuts.cvc (rest := []) ha hb hc (by intro d t e; cases e) (by intro d e t e'; cases e')) WF.nil
    simpa using this
  · obtain ⟨hp, hfp, -, -, htr, -, hdid, hcr, -⟩ := partForm_ok hf
    have hpc : f.partCopy ≠ [] := by
      intro e
      cases ht : f.trailingH with
      | true => obtain ⟨l, hl, -⟩ := htr ht; rw [e] at hl; simp at hl
      | false => rw [e, ht] at hp; simp at hp; exact hne hp
    have hypc : 'y' ∉ f.partCopy := by
      intro hm; apply hyp; rw [hp]; simp [hm]
    have htr' : f.trailingH = true → ∃ l, f.partCopy.getLast? = some l ∧ Vowel l := by
      intro e; obtain ⟨l, hl, hv⟩ := htr e; exact ⟨l, hl, (isVowel_iff l).1 hv⟩
    have hnh : (if f.trailingH then s%"'" else ([] : Str)) = [] ∨ (if f.trailingH then s%"'" else ([] : Str)) = s%"'" := by
      cases f.trailingH <;> simp
    rcases hcase with ⟨hd, -, -, rfl⟩ | ⟨hd, shape, p0, hz, -, -, rfl⟩
    · subst hd
      have hcan : f.canBeRafsi = true := by
        cases hcb : f.canBeRafsi with
        | true => rfl
        | false => rw [hcb] at hfd; simp at hfd
      rw [if_pos hcan] at hfd
      obtain ⟨hk, hfn, -⟩ := (tryKaha_ok hfd).1 rfl
      obtain ⟨hj, hc⟩ := jvokaha2_ok hk
      have hpm : PAdj PairMade found := pairMade_no_y (by rw [hj]; exact hypc)
      refine ⟨lead, found, rfl, hnh, hleadh, hc.sane hfn hpm ?_, ?_⟩
      · intro e; rw [hj] at e; exact hypc (getLast_mem e)
      · refine wrap f.partCopy f.trailingH hp hpc htr' ?_ ?_
        · rw [← hj]; exact hc.wf
        · rw [← hj]; exact (hc.apos (by simpa using hpm)).1
    · obtain ⟨w1, w2, -, -, -⟩ := checkZihevlaOrRafsi_wf hz
      rw [hfp] at w1 w2
      refine ⟨lead, [f.partCopy], rfl, hnh, hleadh, Sane.single hpc ?_, wrap f.partCopy f.trailingH hp hpc htr' w1.prefix (adjAll_append.1 w2).1⟩
      intro hh
      have hrn := hyphen_no_y hh hypc
      cases ha : f.didAddA with
      | true =>
        obtain ⟨st, -, h4, -⟩ := checkZihevlaOrRafsi_scan hz
        have := h4 (by rw [partForm_require hf ha]; rfl)
        rw [hfp, ha] at this
        rcases hrn with e | e <;> rw [e] at this <;> simp at this
      | false =>
        have hv : ∃ l, f.partCopy.getLast? = some l ∧ Vowel l := by
          cases ht : f.trailingH with
          | true => exact htr' ht
          | false =>
            have hn : ¬ (i + 1 < ctx.yParts.length ∨ ctx.isCmevlatai = true) := by
              intro hor
              have := hdid.2 ⟨ht, hor⟩
              rw [ha] at this; cases this
            obtain ⟨l, hl', hv⟩ := hl hn
            refine ⟨l, ?_, hv⟩
            rw [ht] at hp
            simp at hp
            rw [← hp]
            rw [h0] at hl'
            cases lead with
            | false => simpa using hl'
            | true =>
              simp only [if_true] at hl'
              rw [List.getLast?_cons] at hl'
              cases hpl : part.getLast? with
              | none => rw [List.getLast?_eq_none_iff] at hpl; exact absurd hpl hne
              | some x => rw [hpl] at hl'; exact hl'
        obtain ⟨l, hl', hv⟩ := hv
        rcases hrn with e | e <;> rw [e] at hl' <;> cases hl' <;> exact absurd hv (by decide)

/-- The pieces after some parts. -/
structure AfterParts (y : YHyphens) (n : Nat) (st : AState) : Prop where
  sane : Sane y st.resultParts
  hyphen : st.nextHyphen = [] ∨ st.nextHyphen = s%"'"
  count : n ≤ (st.resultParts.filter (fun p => ¬ Hyphen p)).length

theorem Sane.count {y : YHyphens} {ps : List Str} (h : Sane y ps) : 1 ≤ (ps.filter (fun p => ¬ Hyphen p)).length := by
  cases ps with
  | nil => exact absurd rfl h.ne
  | cons p ps =>
    have := h.first p rfl
    simp [this]

theorem analyseLoop_group {R : Rec} {ctx : ACtx} : ∀ {parts : List Str} {i : Nat} {st st' : AState},
    analyseLoop R ctx i parts st = .ok st' → 0 < i → i + parts.length = ctx.yParts.length →
    (∀ p ∈ parts, 'y' ∉ p) →
    (∀ p, parts.getLast? = some p → ctx.isCmevlatai = true ∨ ∃ l, p.getLast? = some l ∧ Vowel l) →
    AfterParts ctx.s.yHyphens i st →
    AfterParts ctx.s.yHyphens (i + parts.length) st' ∧
      (∀ p ∈ parts, WF ctx.s.allowMz p ∧ AdjAll AposOk p) := by
  intro parts
  induction parts with
  | nil => intro i st st' h hi hlen _ _ hst; cases h; exact ⟨hst, by simp⟩
  | cons p ps ih =>
    intro i st st' h hi hlen hy hlast hst
    unfold analyseLoop at h
    obtain ⟨st1, h1, h⟩ := bind_ok h
    have hne : i ≠ 0 := by omega
    obtain ⟨lead, G, hres, hnh, hlead, hsane, hwf, hap⟩ := analysePart_group h1 (hy p (by simp)) (by
      intro hn
      have : ps = [] := by
        cases ps with
        | nil => rfl
        | cons q ps => simp at hlen; omega
      subst this
      rcases hlast p rfl with hc | hl
      · exact absurd (.inr hc) hn
      · exact hl)
    have hw : withHyphen i st lead = st.resultParts ++ [hyphenBefore i st lead] := by
      unfold withHyphen
      rw [if_neg]
      simp [hyphenBefore, hne]
    have hhy : hyphenBefore i st lead = s%"y" ∨ hyphenBefore i st lead = s%"'y" ∨ hyphenBefore i st lead = s%"y'" ∨
        hyphenBefore i st lead = s%"'y'" := by
      unfold hyphenBefore
      rcases hst.hyphen with e | e <;> cases lead <;> simp [hne, e]
    have hst1 : AfterParts ctx.s.yHyphens (i + 1) st1 := by
      refine ⟨?_, hnh, ?_⟩
      · rw [hres, hw]; exact hst.sane.glue hsane hhy
      · rw [hres, hw]
        have h1 := hst.count
        have h2 := hsane.count
        simp only [List.filter_append, List.length_append]
        omega
    obtain ⟨h2, h3⟩ := ih h (by omega) (by simp at hlen; omega) (fun q hq => hy q (by simp [hq])) (by
      intro q hq
      cases ps with
      | nil => cases hq
      | cons a ps => exact hlast q (by simpa using hq)) hst1
    refine ⟨by have e : i + (p :: ps).length = i + 1 + ps.length := by simp; omega
               rw [e]; exact h2, ?_⟩
    intro q hq
    rcases List.mem_cons.1 hq with rfl | hq
    · exact ⟨hwf, hap⟩
    · exact h3 q hq

/-- Gluing parts together with `y`. -/
theorem joinSep_y {mz : Bool} : ∀ {ps : List Str}, (∀ p ∈ ps, WF mz p ∧ AdjAll AposOk p) →
    WF mz (joinSep 'y' ps) ∧ AdjAll AposOk (joinSep 'y' ps) := by
  have key : ∀ {ps : List Str}, (∀ p ∈ ps, WF mz p ∧ AdjAll AposOk p) →
      WF mz (ps.flatMap (fun q => 'y' :: q)) ∧ AdjAll AposOk (ps.flatMap (fun q => 'y' :: q)) ∧
        (∀ c, (ps.flatMap (fun q => 'y' :: q)).head? = some c → c = 'y') := by
    intro ps
    induction ps with
    | nil => intro _; exact ⟨WF.nil, adjAll_nil, by simp⟩
    | cons p ps ih =>
      intro h
      obtain ⟨h1, h2, h3⟩ := ih (fun q hq => h q (by simp [hq]))
      obtain ⟨w, a⟩ := h p (by simp)
      rw [List.flatMap_cons]
      generalize ps.flatMap (fun q => 'y' :: q) = rest at h1 h2 h3
      have a1 : AdjAll AposOk ('y' :: p) := by
        cases p with
        | nil => exact adjAll_single
        | cons c p => exact adjAll_cons.2 ⟨⟨fun _ => .inr rfl, fun e => absurd e (by decide)⟩, a⟩
      refine ⟨WF.append (WF.cons (.inr (.inr (.inr rfl))) (by decide) w) h1 ?_, adjAll_append.2 ⟨a1, h2, ?_⟩, by simp⟩
      · intro a b _ hb; rw [h3 b hb]; right; decide
      · intro a b _ hb; rw [h3 b hb]; exact ⟨fun e => absurd e (by decide), fun _ => .inr rfl⟩
  intro ps h
  cases ps with
  | nil => exact ⟨WF.nil, adjAll_nil⟩
  | cons p ps =>
    obtain ⟨h1, h2, h3⟩ := key (fun q hq => h q (List.mem_cons_of_mem p hq))
    obtain ⟨w, a⟩ := h p (by simp)
    refine ⟨WF.append w h1 ?_, adjAll_append.2 ⟨a, h2, ?_⟩⟩
    · intro a b _ hb; rw [h3 b hb]; right; decide
    · intro a b _ hb; rw [h3 b hb]; exact ⟨fun e => absurd e (by decide), fun _ => .inr rfl⟩

/-- The whole loop over the parts. -/
theorem analyseLoop_all {R : Rec} {ctx : ACtx} {w : Str} {c0 l : Char} {st : AState}
    (hctx : ctx.yParts = splitOn 'y' w) (hcm : ctx.isCmevlatai = isConsonant l)
    (hc0 : w.head? = some c0) (hl : w.getLast? = some l) (hcv0 : isVowel c0 = true ∨ isConsonant c0 = true)
    (hcv : isConsonant l = true ∨ isVowel l = true)
    (hst : analyseLoop R ctx 0 (splitOn 'y' w) {} = .ok st) :
    AfterParts ctx.s.yHyphens (splitOn 'y' w).length st ∧ WF ctx.s.allowMz w ∧ AdjAll AposOk w := by
  have hno := splitOn_not_mem 'y' w
  have hj := joinSep_splitOn 'y' w
  obtain ⟨init, q, hip, hq⟩ := splitOn_getLast (c := 'y') hl (vowel_ne_y hcv).1
  have hlast : ∀ p, (splitOn 'y' w).getLast? = some p → ctx.isCmevlatai = true ∨ ∃ l, p.getLast? = some l ∧ Vowel l := by
    intro p e
    rw [hip] at e
    simp at e
    subst e
    rw [hcm]
    rcases hcv with h | h
    · exact .inl h
    · exact .inr ⟨l, hq, (isVowel_iff l).1 h⟩
  cases hs : splitOn 'y' w with
  | nil => exact absurd hs (splitOn_ne_nil _ _)
  | cons p ps =>
    rw [hs] at hst hno hj hlast hctx
    unfold analyseLoop at hst
    obtain ⟨st1, h1, h⟩ := bind_ok hst
    obtain ⟨lead, G, hres, hnh, hlead, hsane, hwf, hap⟩ := analysePart_group h1 (hno p (by simp)) (by
      intro hn
      have : ps = [] := by
        cases ps with
        | nil => rfl
        | cons q ps => rw [hctx] at hn; simp at hn
      subst this
      rcases hlast p rfl with hc | hl
      · exact absurd (.inr hc) hn
      · exact hl)
    have hlf : lead = false := by
      cases lead with
      | false => rfl
      | true =>
        have := hlead rfl
        rw [← hj] at hc0
        cases p with
        | nil => simp at this
        | cons a p =>
          simp [joinSep] at hc0 this
          subst hc0; subst this
          revert hcv0; decide
    subst hlf
    have hst1 : AfterParts ctx.s.yHyphens (0 + 1) st1 := by
      refine ⟨?_, hnh, ?_⟩
      · rw [hres]; simpa [withHyphen, hyphenBefore] using hsane
      · rw [hres]; simpa [withHyphen, hyphenBefore] using hsane.count
    obtain ⟨h2, h3⟩ := analyseLoop_group h (by omega) (by rw [hctx]; simp; omega) (fun q hq => hno q (by simp [hq])) (by
      intro q hq
      cases ps with
      | nil => cases hq
      | cons a ps => exact hlast q (by simpa using hq)) hst1
    refine ⟨?_, ?_⟩
    · have e : (p :: ps).length = 0 + 1 + ps.length := by simp; omega
      rw [e]; exact h2
    · rw [← hj]
      apply joinSep_y
      intro q hq
      rcases List.mem_cons.1 hq with rfl | hq
      · exact ⟨hwf, hap⟩
      · exact h3 q hq

/-- An accepted word is well-formed. -/
theorem Accepts.wf {R : Rec} {s : Settings} {w : Str} {t : BType} {ps : List Str} (h : Accepts R s w t ps) :
    WF s.allowMz w ∧ AdjAll AposOk w := by
  cases h with
  | gismu hl hv hg =>
    rw [isGismu_iff] at hg
    have := Cuts.wf (Cuts.gismu hg) WF.nil
    rw [List.append_nil] at this
    exact ⟨this, adjAll_mono (rafsi_made (.gismu hg)) (fun _ _ h => h.1)⟩
  | kaha hl _ _ hcv hj =>
    obtain ⟨h1, h2, h3, -⟩ := jvokaha_made hj
    rw [← h1]
    exact ⟨h2.wf, (h2.apos (by simpa using h3)).1⟩
  | zihevla _ _ _ _ _ _ hz =>
    obtain ⟨h1, h2, -⟩ := checkZihevlaOrRafsi_wf hz
    exact ⟨h1, h2⟩
  | parts hc0 hl hc _ _ hcv _ _ _ hst => exact (analyseLoop_all rfl rfl hc0 hl hc hcv hst).2

/-- An accepted word neither begins nor ends with an apostrophe. -/
theorem Accepts.ends {R : Rec} {s : Settings} {w : Str} {t : BType} {ps : List Str} (h : Accepts R s w t ps) :
    w.head? ≠ some '\'' ∧ w.getLast? ≠ some '\'' := by
  have hlast : ∃ l, w.getLast? = some l ∧ (isConsonant l = true ∨ isVowel l = true) := by
    cases h with
    | gismu hl hv _ => exact ⟨_, hl, .inr hv⟩
    | kaha hl _ _ hcv _ => exact ⟨_, hl, hcv⟩
    | zihevla hl hv _ => exact ⟨_, hl, .inr hv⟩
    | parts _ hl _ _ _ hcv => exact ⟨_, hl, hcv⟩
  refine ⟨?_, ?_⟩
  · cases h with
    | gismu hl hv hg =>
      rw [isGismu_iff] at hg
      intro e
      cases w with
      | nil => cases e
      | cons c w =>
        cases e
        obtain ⟨x, t, e', hx⟩ := rafsi_first (.gismu hg)
        cases e'
        revert hx; decide
    | kaha _ _ _ _ hj =>
      obtain ⟨h1, h2, h3, -⟩ := jvokaha_made hj
      rw [← h1]
      intro e
      obtain ⟨p, l, e', -⟩ := (h2.apos (by simpa using h3)).2 e
      cases e'
    | zihevla _ _ _ _ _ _ hz => exact (checkZihevlaOrRafsi_wf hz).2.2.2.1
    | parts hc0 _ hc => rw [hc0]; intro e; cases e; revert hc; decide
  · obtain ⟨l, hl, hcv⟩ := hlast
    rw [hl]
    intro e
    cases e
    revert hcv
    decide

/-- The pieces of a compound. -/
theorem Accepts.sane {R : Rec} {s : Settings} {w : Str} {t : BType} {ps : List Str} (h : Accepts R s w t ps)
    (ht : t ≠ .gismu ∧ t ≠ .zihevla) :
    Sane s.yHyphens ps ∧ 2 ≤ (ps.filter (fun p => ¬ Hyphen p)).length := by
  cases h with
  | gismu hl hv hg => exact absurd rfl ht.1
  | kaha hl _ _ hcv hj =>
    obtain ⟨h1, h2, h3, h4⟩ := jvokaha_made hj
    refine ⟨h2.sane ?_ h3 ?_, ?_⟩
    · rintro rfl; simp at h4
    · rw [h1, hl]; intro e; cases e; revert hcv; decide
    · refine Nat.le_trans h4 ?_
      have : ∀ qs : List Str, (∀ q ∈ qs, q ∈ ps) →
          (qs.filter (fun x => x.length > 2)).length ≤ (qs.filter (fun p => ¬ Hyphen p)).length := by
        intro qs
        induction qs with
        | nil => simp
        | cons q qs ih =>
          intro hq
          have ih := ih (fun x hx => hq x (by simp [hx]))
          by_cases hlq : q.length > 2
          · have : ¬ Hyphen q := by
              rcases h2.mem q (hq q (by simp)) with ⟨-, h⟩ | h | h | h | h
              · exact rafsi_not_hyphen h
              all_goals (subst h; simp at hlq)
            rw [List.filter_cons_of_pos (by simpa using hlq), List.filter_cons_of_pos (by simpa using this)]
            simp only [List.length_cons]; omega
          · rw [List.filter_cons_of_neg (by simpa using hlq)]
            refine Nat.le_trans ih ?_
            rw [List.filter_cons]
            split <;> simp
      exact this ps (fun _ h => h)
  | zihevla _ _ _ _ _ _ hz => exact absurd rfl ht.2
  | parts hc0 hl hc _ _ hcv _ _ hlen hst =>
    obtain ⟨h1, -⟩ := analyseLoop_all rfl rfl hc0 hl hc hcv hst
    refine ⟨h1.sane, Nat.le_trans ?_ h1.count⟩
    have : (splitOn 'y' w).length ≠ 0 := by
      intro e; exact splitOn_ne_nil 'y' w (List.length_eq_zero_iff.1 e)
    omega

theorem Chop.cut {y : YHyphens} {mz : Bool} {prev : Option Str} {ps : List Str} (h : Chop y mz prev ps) :
    ∀ {u v : List Str} {p : Str}, ps = u ++ p :: v → Hyphen p ∨ Cuts mz p (join v) ∧ Chop y mz (some p) v := by
  induction h with
  | nil => intro u v p e; simp at e
  | y _ _ ih =>
    intro u v p e
    cases u with
    | nil => cases e; left; decide
    | cons a u => cases e; exact ih rfl
  | n _ _ _ _ _ ih =>
    intro u v p e
    cases u with
    | nil => cases e; left; decide
    | cons a u => cases e; exact ih rfl
  | r _ _ _ _ _ _ _ ih =>
    intro u v p e
    cases u with
    | nil => cases e; left; decide
    | cons a u => cases e; exact ih rfl
  | hy _ _ _ ih =>
    intro u v p e
    cases u with
    | nil => cases e; left; decide
    | cons a u => cases e; exact ih rfl
  | rafsi hc hch ih =>
    intro u v p e
    cases u with
    | nil => cases e; exact .inr ⟨hc, hch⟩
    | cons a u => cases e; exact ih rfl

theorem Chop.nil_of_join {y : YHyphens} {mz : Bool} {prev : Option Str} {ps : List Str} (h : Chop y mz prev ps)
    (hj : join ps = []) : ps = [] := by
  cases ps with
  | nil => rfl
  | cons p ps =>
    have := h.nonempty
    simp [join] at hj
    simp [hj.1] at this

theorem Chop.y_of_join {y : YHyphens} {mz : Bool} {prev : Option Str} {ps : List Str} (h : Chop y mz prev ps)
    {t : Str} (hj : join ps = 'y' :: t) : ∃ v, ps = s%"y" :: v := by
  cases h with
  | nil => cases hj
  | y => exact ⟨_, rfl⟩
  | n => simp [join] at hj
  | r => simp [join] at hj
  | hy => simp [join] at hj
  | @rafsi _ p ps hc _ =>
    obtain ⟨x, t', rfl, hx⟩ := rafsi_first hc.rafsi
    simp [join] at hj
    rw [hj.1] at hx
    exact absurd hx (by decide)

end Jvotci
