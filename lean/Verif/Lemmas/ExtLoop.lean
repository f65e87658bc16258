import Verif.Lemmas.ExtOne

/-!
# Helper lemmas: the loop over the parts between y
-/

namespace Jvotci

open Spec

/-- The state after the parts `u`. -/
structure After (s : Settings) (u : List YPart) (st : AState) : Prop where
  result : st.resultParts = joinPieces u
  hyphen : st.nextHyphen = if u.getLast?.any YPart.trail then s%"'" else []
  cluster : st.hasCluster = true ↔ PartsCluster s u
  mahortai : st.isMahortai = false ↔ ∃ p ∈ u.tail, p.kind ≠ .cvc ∧ (ConsonantInitial p.core ∨ Onglide p.core)
  before : st.consonantBeforeBreak = true ↔ ∃ w q, u = w ++ [q] ∧ q.kind = .cvc
  count : st.hasCluster = false → st.numConsonants = (u.map (YPart.count s)).sum

theorem after_nil {s : Settings} : After s [] {} := by
  refine ⟨rfl, rfl, ?_, by simp, ?_, fun _ => rfl⟩
  · simp [PartsCluster]
  · simp

theorem joinPieces_snoc {p : YPart} : ∀ {u : List YPart} {q : YPart}, joinPieces (u ++ [q] ++ [p]) =
    joinPieces (u ++ [q]) ++ [(if q.trail then s%"'" else []) ++ s%"y" ++ (if p.lead then s%"'" else [])] ++ p.pieces := by
  intro u
  induction u with
  | nil => intro q; simp [joinPieces]
  | cons a u ih =>
    intro q
    cases u with
    | nil => simp [joinPieces]
    | cons b u =>
      have := ih (q := q)
      simp only [List.cons_append, joinPieces] at this ⊢
      rw [this]
      simp

theorem joinParts_sep : ∀ {ps : List YPart}, joinParts ps = joinSep 'y' (ps.map YPart.text) := by
  intro ps
  induction ps with
  | nil => rfl
  | cons p ps ih =>
    cases ps with
    | nil => simp [joinParts, joinSep]
    | cons q ps =>
      simp only [joinParts, ih]
      simp [joinSep]

theorem snoc_cases {α : Type} (u : List α) : u = [] ∨ ∃ w q, u = w ++ [q] := by
  rcases List.eq_nil_or_concat u with h | ⟨w, q, h⟩
  · exact .inl h
  · exact .inr ⟨w, q, by simpa using h⟩

theorem hasCluster_snoc {s : Settings} {u : List YPart} {p : YPart} : PartsCluster s (u ++ [p]) ↔
    PartsCluster s u ∨ p.Cluster ∨ ((∃ w q, u = w ++ [q] ∧ q.kind = .cvc) ∧ p.kind ≠ .cvc ∧ Starts s.glides p.core) := by
  unfold PartsCluster
  constructor
  · rintro (⟨x, hx, h⟩ | ⟨a, x, y, b, e, h1, h2, h3⟩)
    · rcases List.mem_append.1 hx with hx | hx
      · exact .inl (.inl ⟨x, hx, h⟩)
      · simp at hx
        subst hx
        exact .inr (.inl h)
    · rcases snoc_cases b with rfl | ⟨w, q, rfl⟩
      · have := List.append_inj' (s₁ := u) (t₁ := [p]) (s₂ := a ++ [x]) (t₂ := [y]) (by simpa using e) rfl
        obtain ⟨e1, e2⟩ := this
        simp at e2
        subst e2
        exact .inr (.inr ⟨⟨a, x, e1, h1⟩, h2, h3⟩)
      · have := List.append_inj' (s₁ := u) (t₁ := [p]) (s₂ := a ++ x :: y :: w) (t₂ := [q]) (by simpa using e) rfl
        exact .inl (.inr ⟨a, x, y, w, this.1, h1, h2, h3⟩)
  · rintro ((⟨x, hx, h⟩ | ⟨a, x, y, b, e, h1, h2, h3⟩) | h | ⟨⟨w, q, e, hq⟩, h2, h3⟩)
    · exact .inl ⟨x, by simp [hx], h⟩
    · exact .inr ⟨a, x, y, b ++ [p], by simp [e], h1, h2, h3⟩
    · exact .inl ⟨p, by simp, h⟩
    · exact .inr ⟨w, q, p, [], by simp [e], hq, h2, h3⟩

theorem after_step {s : Settings} {u : List YPart} {st st' : AState} {p : YPart} (h : After s u st) (hs : Steps s u.length st p st') :
    After s (u ++ [p]) st' := by
  have hc : st'.hasCluster = true ↔ PartsCluster s (u ++ [p]) := by
    rw [hs.cluster, hasCluster_snoc, h.cluster, h.before]
  refine ⟨?_, ?_, hc, ?_, ?_, ?_⟩
  · rw [hs.result, h.result]
    rcases snoc_cases u with rfl | ⟨w, q, rfl⟩
    · simp [joinPieces]
    · rw [joinPieces_snoc, h.hyphen]
      simp
  · rw [hs.hyphen]
    simp
  · rw [hs.mahortai, h.mahortai]
    cases u with
    | nil => simp
    | cons a u =>
      simp only [List.tail_cons, List.cons_append, List.mem_append, List.length_cons, List.mem_singleton]
      constructor
      · rintro (⟨x, hx, h⟩ | ⟨-, h⟩)
        · exact ⟨x, .inl hx, h⟩
        · exact ⟨p, .inr rfl, h⟩
      · rintro ⟨x, hx | rfl, h⟩
        · exact .inl ⟨x, hx, h⟩
        · exact .inr ⟨by omega, h⟩
  · rw [hs.before]
    constructor
    · intro hk
      exact ⟨u, p, rfl, hk⟩
    · rintro ⟨w, q, e, hk⟩
      have := (List.append_inj' e rfl).2
      simp at this
      rw [this]
      exact hk
  · intro hf
    rw [hs.count hf]
    have : st.hasCluster = false := by
      cases hst : st.hasCluster with
      | false => rfl
      | true =>
        rw [hs.cluster.2 (.inl hst)] at hf
        cases hf
    rw [h.count this]
    simp

theorem partOk_core {s : Settings} {cm f l n : Bool} {c : Prop} {p : YPart} (h : PartOk s cm f l n c p) : p.core ≠ [] := by
  intro e
  cases hl : p.lead with
  | true =>
    have := lead_vowel (h.lead hl).2
    rw [e] at this
    exact this
  | false =>
    have := h.start hl
    rw [e] at this
    split at this
    · rcases this with h | h <;> exact h
    · rcases this with h | h <;> exact h

theorem partOk_text {s : Settings} {cm f l n : Bool} {c : Prop} {p : YPart} (h : PartOk s cm f l n c p) : p.text ≠ [] := by
  simp [YPart.text, partOk_core h]

theorem partOk_head {s : Settings} {cm f l n : Bool} {c : Prop} {p : YPart} (h : PartOk s cm f l n c p) :
    p.lead = true ↔ p.text.head? = some '\'' := by
  have hc := partOk_core h
  constructor
  · intro hl
    simp [YPart.text, hl]
  · intro ht
    cases hl : p.lead with
    | true => rfl
    | false =>
      exfalso
      have := h.start hl
      cases hcore : p.core with
      | nil => exact hc hcore
      | cons a t =>
        rw [hcore] at this
        simp [YPart.text, hl, hcore] at ht
        subst ht
        split at this
        · rcases this with h | h
          · exact apos_not_vowel h
          · exact apos_not_consonant h
        · rcases this with h | h
          · exact apos_not_consonant h
          · cases t with
            | nil => cases h
            | cons b c => rcases h.1 with h | h <;> cases h

theorem analysePart_ne {R : Rec} {ctx : ACtx} {i : Nat} {part0 : Str} {st st' : AState} (h : analysePart R ctx i part0 st = .ok st') :
    part0 ≠ [] := by
  rintro rfl
  unfold analysePart stripLeadingH at h
  cases h

theorem loop_ok {ctx : ACtx} (h2 : 2 ≤ ctx.yParts.length) : ∀ {rest : List Str} {u : List YPart} {st st' : AState},
    analyseLoop (program .linked) ctx u.length rest st = .ok st' → After ctx.s u st → ctx.yParts = u.map YPart.text ++ rest →
    (∀ x ∈ rest, 'y' ∉ x ∧ x.length < 10 ^ 94) → (∀ x, rest.getLast? = some x → ∃ c, x.getLast? = some c ∧ if ctx.isCmevlatai then Consonant c else Vowel c) →
    (u = [] → ∀ x, rest.head? = some x → VowelInitial x ∨ ConsonantInitial x) →
    ∃ v, v.map YPart.text = rest ∧ After ctx.s (u ++ v) st' ∧
      ∀ a p b, v = a ++ p :: b → PartOk ctx.s ctx.isCmevlatai (u ++ a).isEmpty (b.isEmpty && !ctx.isCmevlatai) (b.head?.any YPart.lead) (ClusterBefore ctx.s (u ++ a) p) p := by
  intro rest
  induction rest with
  | nil =>
    intro u st st' h hA _ _ _ _
    unfold analyseLoop at h
    cases h
    exact ⟨[], rfl, by simpa using hA, by simp⟩
  | cons part0 rest ih =>
    intro u st st' h hA hyp hall hv h0
    unfold analyseLoop at h
    obtain ⟨st1, h1, h⟩ := bind_ok h
    have hlen : ctx.yParts.length = u.length + (rest.length + 1) := by rw [hyp]; simp
    obtain ⟨nextLead, hnl, ha⟩ : ∃ nextLead : Bool, (nextLead = true ↔ (rest.head?.any fun q => decide (q.head? = some '\'')) = true) ∧
        Around ctx u.length (rest.isEmpty && !ctx.isCmevlatai) nextLead := by
      refine ⟨(rest.head?.any fun q => decide (q.head? = some '\'')), Iff.rfl, ?_, ?_⟩
      · cases rest <;> simp [hlen]
      · intro hi
        cases rest with
        | nil => simp [hlen] at hi
        | cons q rest =>
          unfold analyseLoop at h
          obtain ⟨st2, hq, -⟩ := bind_ok h
          refine ⟨q, ?_, analysePart_ne hq, by simp⟩
          rw [hyp, List.getElem?_append_right (by simp)]
          simp
    have hiu : decide (u.length = 0) = u.isEmpty := by cases u <;> simp
    obtain ⟨p, hpt, hpk, hst⟩ := part_ok h1 ha (fun hl => hv part0 (by
        cases rest with
        | nil => rfl
        | cons => rw [hlen] at hl; simp at hl)) (hall part0 (by simp)).1 (hall part0 (by simp)).2 (fun hu => by
        have hu : u = [] := by simpa using hu
        refine ⟨by rw [hyp, hu]; rfl, h2, h0 hu part0 rfl, ?_⟩
        rw [hA.hyphen, hu]
        rfl)
    have hA1 := after_step hA hst
    obtain ⟨v, hvt, hAv, hok⟩ := ih (u := u ++ [p]) (by simpa using h) hA1 (by rw [hyp, ← hpt]; simp) (fun x hx => hall x (by simp [hx])) (fun x hx => by
        refine hv x ?_
        cases rest with
        | nil => cases hx
        | cons => simpa using hx) (by simp)
    refine ⟨p :: v, by simp [hpt, hvt], by simpa using hAv, ?_⟩
    intro a q b e
    cases a with
    | cons x a =>
      simp at e
      obtain ⟨rfl, e⟩ := e
      have := hok a q b e
      simpa using this
    | nil =>
      simp at e
      obtain ⟨rfl, rfl⟩ := e
      have e1 : rest.isEmpty = v.isEmpty := by rw [← hvt]; cases v <;> simp
      have e2 : nextLead = v.head?.any YPart.lead := by
        rw [Bool.eq_iff_iff, hnl, ← hvt]
        cases v with
        | nil => simp
        | cons q v =>
          have := hok [] q v rfl
          simp
          exact (partOk_head this).symm
      rw [hiu, e1, e2, hA.cluster, hA.before] at hpk
      rw [List.append_nil]
      exact hpk

theorem loop_of {ctx : ACtx} (h2 : 2 ≤ ctx.yParts.length) : ∀ {v u : List YPart} {st : AState},
    After ctx.s u st → ctx.yParts = (u ++ v).map YPart.text →
    (∀ x ∈ v, x.text.length < 10 ^ 94) → (∀ x, v.getLast? = some x → ∃ c, x.text.getLast? = some c ∧ if ctx.isCmevlatai then Consonant c else Vowel c) →
    (∀ a p b, v = a ++ p :: b → PartOk ctx.s ctx.isCmevlatai (u ++ a).isEmpty (b.isEmpty && !ctx.isCmevlatai) (b.head?.any YPart.lead) (ClusterBefore ctx.s (u ++ a) p) p) →
    ∃ st', analyseLoop (program .linked) ctx u.length (v.map YPart.text) st = .ok st' ∧ After ctx.s (u ++ v) st' := by
  intro v
  induction v with
  | nil =>
    intro u st hA _ _ _ _
    exact ⟨st, rfl, by simpa using hA⟩
  | cons p v ih =>
    intro u st hA hyp hall hv hok
    have hlen : ctx.yParts.length = u.length + (v.length + 1) := by rw [hyp]; simp
    have ha : Around ctx u.length (v.isEmpty && !ctx.isCmevlatai) (v.head?.any YPart.lead) := by
      refine ⟨?_, ?_⟩
      · cases v <;> simp [hlen]
      · intro hi
        cases v with
        | nil => simp [hlen] at hi
        | cons q v =>
          have hq := hok [p] q v rfl
          refine ⟨q.text, ?_, partOk_text hq, by simpa using partOk_head hq⟩
          rw [hyp, List.map_append, List.getElem?_append_right (by simp)]
          simp
    have hiu : decide (u.length = 0) = u.isEmpty := by cases u <;> simp
    have hp := hok [] p v rfl
    have hpk : PartOk ctx.s ctx.isCmevlatai (decide (u.length = 0)) (v.isEmpty && !ctx.isCmevlatai) (v.head?.any YPart.lead) (st.hasCluster = true ∨ (st.consonantBeforeBreak = true ∧ Starts ctx.s.glides p.core)) p := by
      rw [List.append_nil] at hp
      rw [hiu, hA.cluster, hA.before]
      exact hp
    obtain ⟨st1, h1, hst⟩ := part_of hpk ha (fun hl => by
        refine hv p ?_
        cases v with
        | nil => rfl
        | cons => rw [hlen] at hl; simp at hl) (hall p (by simp)) (fun hu => by
        have hu : u = [] := by simpa using hu
        refine ⟨by rw [hyp, hu]; rfl, h2, ?_⟩
        rw [hA.hyphen, hu]
        rfl)
    obtain ⟨st', h', hA'⟩ := ih (u := u ++ [p]) (after_step hA hst) (by rw [hyp]; simp) (fun x hx => hall x (by simp [hx])) (fun x hx => by
        refine hv x ?_
        cases v with
        | nil => cases hx
        | cons => simpa using hx) (fun a q b e => by
        have := hok (p :: a) q b (by simp [e])
        simpa using this)
    refine ⟨st', ?_, by simpa using hA'⟩
    rw [List.map_cons]
    unfold analyseLoop
    rw [h1, ok_bind]
    simpa using h'

end Jvotci
