import Verif.Lemmas.Parts
import Verif.Lemmas.Zih
import Verif.Props.Readings

/-!
# Helper lemmas: where `has_cluster` comes from (C36)
-/

namespace Jvotci

open Spec

/-- Two consonants next to each other. -/
def Pair (w : Str) : Prop := ∃ a b, Consonant a ∧ Consonant b ∧ Adjacent w a b

def EndsC (w : Str) : Prop := ∃ c, w.getLast? = some c ∧ Consonant c

theorem adjacent_append {u v w : Str} {a b : Char} (h : Adjacent v a b) : Adjacent (u ++ v ++ w) a b := by
  obtain ⟨x, y, rfl⟩ := h
  exact ⟨u ++ x, y ++ w, by simp⟩

theorem Pair.append {u v w : Str} (h : Pair v) : Pair (u ++ v ++ w) := by
  obtain ⟨a, b, ha, hb, h⟩ := h
  exact ⟨a, b, ha, hb, adjacent_append h⟩

theorem Pair.right {v w : Str} (h : Pair v) : Pair (v ++ w) := h.append (u := [])

theorem Pair.left {u v : Str} (h : Pair v) : Pair (u ++ v) := by simpa using h.append (u := u) (w := [])

/-- A final vowel is not part of a pair of consonants. -/
theorem Pair.drop_vowel {u : Str} {c : Char} (h : Pair (u ++ [c])) (hc : Vowel c) : Pair u := by
  obtain ⟨a, b, ha, hb, x, y, e⟩ := h
  rcases List.eq_nil_or_concat y with rfl | ⟨y', d, rfl⟩
  · exfalso
    have : u ++ [c] = (x ++ [a]) ++ [b] := by rw [e]; simp
    obtain ⟨-, hcb⟩ := List.append_inj' this rfl
    cases hcb
    exact vowel_not_consonant hc hb
  · have : u ++ [c] = (x ++ a :: b :: y') ++ [d] := by rw [e]; simp
    obtain ⟨hu, -⟩ := List.append_inj' this rfl
    exact ⟨a, b, ha, hb, x, y', hu⟩

theorem EndsC.left {u v : Str} (h : EndsC v) : EndsC (u ++ v) := by
  obtain ⟨c, hc, h⟩ := h
  obtain ⟨t, rfl⟩ := List.getLast?_eq_some_iff.1 hc
  exact ⟨c, List.getLast?_eq_some_iff.2 ⟨u ++ t, by simp⟩, h⟩

theorem firstCluster_pair {v u ch t : Str} (h : FirstCluster v u ch t) : Pair v := by
  obtain ⟨a, b, r, hch⟩ : ∃ a b r, ch = a :: b :: r := by
    match ch, h.long with
    | a :: b :: r, _ => exact ⟨a, b, r, rfl⟩
  subst hch
  exact ⟨a, b, h.consonants a (by simp), h.consonants b (by simp), u, r ++ t, by rw [h.eq]; simp⟩

/-- The shapes that `analyse_brivla` takes for a cluster. -/
theorem tarmi_cluster {p : Str} (h1 : rafsiTarmi p ≠ .cvv) (h2 : rafsiTarmi p ≠ .cvhv) (h3 : rafsiTarmi p ≠ .other) :
    Pair p ∨ EndsC p ∨ (∃ a, p = [a] ∧ isVowel a = false) ∨ 'y' ∈ p := by
  cases ht : rafsiTarmi p with
  | cvv => exact absurd ht h1
  | cvhv => exact absurd ht h2
  | other => exact absurd ht h3
  | cvc =>
    obtain ⟨a, b, c, rfl, -, -, hc⟩ := tarmi_cvc.1 ht
    exact .inr (.inl ⟨c, rfl, (isConsonant_iff c).1 hc⟩)
  | ccv =>
    obtain ⟨a, b, c, rfl, ha, hb, -⟩ := tarmi_ccv.1 ht
    exact .inl ⟨a, b, (isConsonant_iff a).1 ha, (isConsonant_iff b).1 hb, [], [c], rfl⟩
  | cvcc =>
    obtain ⟨a, b, c, d, rfl, -, -, hc, hd⟩ := tarmi_cvcc.1 ht
    exact .inl ⟨c, d, (isConsonant_iff c).1 hc, (isConsonant_iff d).1 hd, [a, b], [], rfl⟩
  | ccvc =>
    obtain ⟨a, b, c, d, rfl, ha, hb, -⟩ := tarmi_ccvc.1 ht
    exact .inl ⟨a, b, (isConsonant_iff a).1 ha, (isConsonant_iff b).1 hb, [], [c, d], rfl⟩
  | cvccv =>
    obtain ⟨a, b, c, d, e, rfl, -, -, hc, hd, -⟩ := tarmi_cvccv.1 ht
    exact .inl ⟨c, d, (isConsonant_iff c).1 hc, (isConsonant_iff d).1 hd, [a, b], [e], rfl⟩
  | ccvcv =>
    obtain ⟨a, b, c, d, e, rfl, ha, hb, -⟩ := tarmi_ccvcv.1 ht
    exact .inl ⟨a, b, (isConsonant_iff a).1 ha, (isConsonant_iff b).1 hb, [], [c, d, e], rfl⟩
  | hyphen =>
    rcases tarmi_hyphen.1 ht with ⟨a, rfl, ha⟩ | rfl
    · exact .inr (.inr (.inl ⟨a, rfl, ha⟩))
    · exact .inr (.inr (.inr (by decide)))

/-- `has_cluster` is set by a piece of one of these shapes. -/
theorem countFound_cluster : ∀ {ps : List Str} {n : Nat} {c : Bool}, (countFound ps (n, c)).2 = true →
    c = true ∨ ∃ p ∈ ps, rafsiTarmi p ≠ .cvv ∧ rafsiTarmi p ≠ .cvhv ∧ rafsiTarmi p ≠ .other
  | [], _, _, h => .inl h
  | p :: ps, n, c, h => by
    have step : ∀ {n' : Nat}, (countFound ps (n', c)).2 = true →
        c = true ∨ ∃ q ∈ p :: ps, rafsiTarmi q ≠ .cvv ∧ rafsiTarmi q ≠ .cvhv ∧ rafsiTarmi q ≠ .other := by
      intro n' h'
      rcases countFound_cluster h' with h' | ⟨q, hq, h'⟩
      · exact .inl h'
      · exact .inr ⟨q, List.mem_cons_of_mem _ hq, h'⟩
    unfold countFound at h
    split at h
    · exact step h
    · exact step h
    · exact step h
    · rename_i h1 h2 h3
      exact .inr ⟨p, by simp, h1, h2, h3⟩

/-- What follows a piece found in a text without y begins with a consonant. -/
theorem chop_next {y : YHyphens} {mz : Bool} {prev : Option Str} {ps : List Str} (h : Chop y mz prev ps) (hy : 'y' ∉ join ps) :
    ps = [] ∨ ∃ c t, join ps = c :: t ∧ Consonant c := by
  cases h with
  | nil => exact .inl rfl
  | y => exact absurd (by simp [join]) hy
  | n => exact .inr ⟨'n', _, by simp [join]; rfl, by decide⟩
  | r => exact .inr ⟨'r', _, by simp [join]; rfl, by decide⟩
  | hy => exact absurd (by simp [join]) hy
  | @rafsi _ p ps hc _ =>
    right
    match p, hc.rafsi with
    | [], hr => exact absurd rfl (rafsi_ne_nil hr)
    | a :: t, hr => exact ⟨a, _, by simp [join]; rfl, rafsi_head? hr rfl⟩

/-- A piece of such a shape in a text without y. -/
theorem chop_cluster {y : YHyphens} {mz : Bool} {prev : Option Str} {ps : List Str} (h : Chop y mz prev ps) (hy : 'y' ∉ join ps) :
    ∀ p ∈ ps, rafsiTarmi p ≠ .cvv → rafsiTarmi p ≠ .cvhv → rafsiTarmi p ≠ .other → Pair (join ps) ∨ EndsC (join ps) := by
  have hj : ∀ {p : Str} {ps : List Str}, join (p :: ps) = p ++ join ps := by simp [join]
  have tail : ∀ {p : Str} {ps : List Str}, Pair (join ps) ∨ EndsC (join ps) → Pair (join (p :: ps)) ∨ EndsC (join (p :: ps)) := by
    intro p ps h
    rw [hj]
    rcases h with h | h
    · exact .inl h.left
    · exact .inr h.left
  induction h with
  | nil => simp
  | y => exact absurd (by simp [join]) hy
  | hy => exact absurd (by simp [join]) hy
  | @n _ ps t _ _ _ e _ ih =>
    intro _ _ _ _ _
    exact .inl ⟨'n', 'r', by decide, by decide, [], t, by rw [hj, e]; rfl⟩
  | @r _ ps c t _ _ _ e hc _ _ ih =>
    intro _ _ _ _ _
    exact .inl ⟨'r', c, by decide, (isConsonant_iff c).1 hc, [], t, by rw [hj, e]; rfl⟩
  | @rafsi _ p ps hc hch ih =>
    intro q hq h1 h2 h3
    rw [hj] at hy
    have hy' : 'y' ∉ p ∧ 'y' ∉ join ps := by simpa using hy
    rcases List.mem_cons.1 hq with rfl | hq
    · rw [hj]
      rcases tarmi_cluster h1 h2 h3 with hp | ⟨c, hc1, hc2⟩ | ⟨a, rfl, -⟩ | hyp
      · exact .inl hp.right
      · rcases chop_next hch hy'.2 with rfl | ⟨d, t, e, hd⟩
        · right
          rw [show join ([] : List Str) = [] from rfl, List.append_nil]
          exact ⟨c, hc1, hc2⟩
        · left
          obtain ⟨u, rfl⟩ := List.getLast?_eq_some_iff.1 hc1
          exact ⟨c, d, hc2, hd, u, t, by rw [e]; simp⟩
      · have := hc.length_pos; simp at this
      · exact absurd hyp hy'.1
    · exact tail (ih hy'.2 q hq h1 h2 h3)

/-- Where `has_cluster` and `consonant_before_break` come from. -/
theorem analysePart_cluster {R : Rec} {ctx : ACtx} {i : Nat} {part0 : Str} {st st' : AState}
    (h : analysePart R ctx i part0 st = .ok st') (hy : 'y' ∉ part0) :
    (st'.hasCluster = true → st.hasCluster = true ∨ st.consonantBeforeBreak = true ∨ Pair part0 ∨ EndsC part0) ∧
    (st'.consonantBeforeBreak = true → EndsC part0) := by
  obtain ⟨part, lead, hs, hcase⟩ := analysePart_ok h
  obtain ⟨hne, h0, -, -⟩ := stripLeadingH_ok hs
  have up : ∀ {x : Str}, (∃ u, part0 = u ++ x) → Pair x ∨ EndsC x → Pair part0 ∨ EndsC part0 := by
    rintro x ⟨u, rfl⟩ (h | h)
    · exact .inl h.left
    · exact .inr h.left
  have hsuf : ∃ u, part0 = u ++ part := by
    rw [h0]
    cases lead with
    | true => exact ⟨['\''], rfl⟩
    | false => exact ⟨[], rfl⟩
  rcases hcase with ⟨hcvc, rfl⟩ | ⟨-, c0, f, found, did, hc0, hf, hfd, hcase⟩
  · refine ⟨fun h => .inl h, fun _ => ?_⟩
    obtain ⟨a, b, c, rfl, -, -, hc⟩ := tarmi_cvc.1 hcvc
    obtain ⟨u, rfl⟩ := hsuf
    exact EndsC.left ⟨c, rfl, (isConsonant_iff c).1 hc⟩
  · have hcc : (if st.consonantBeforeBreak && (isConsonant c0 || (ctx.s.glides && isGlide part)) then true
        else st.hasCluster) = true → st.hasCluster = true ∨ st.consonantBeforeBreak = true := by
      intro h
      split at h
      · rename_i hb
        rw [Bool.and_eq_true] at hb
        exact .inr hb.1
      · exact .inl h
    generalize (if st.consonantBeforeBreak && (isConsonant c0 || (ctx.s.glides && isGlide part)) then true
        else st.hasCluster) = hc at *
    obtain ⟨hp, hfp, -, hat, htv, hnq, -, hcr, -⟩ := partForm_ok hf
    have hcopy : Pair f.partCopy ∨ EndsC f.partCopy → Pair part0 ∨ EndsC part0 := by
      intro hcp
      refine up hsuf ?_
      rw [hp]
      rcases hcp with h | h
      · exact .inl h.right
      · right
        cases ht : f.trailingH with
        | false => simpa using h
        | true =>
          exfalso
          obtain ⟨l, hl, hlv⟩ := htv ht
          obtain ⟨c, hc, hcc⟩ := h
          rw [hl] at hc
          cases hc
          exact vowel_not_consonant ((isVowel_iff _).1 hlv) hcc
    have hpart : Pair f.part → Pair f.partCopy := by
      rw [hfp]
      cases f.didAddA with
      | false => intro h; simpa using h
      | true => intro h; exact Pair.drop_vowel h (by decide)
    have hyc : 'y' ∉ f.partCopy := by
      obtain ⟨u, e⟩ := hsuf
      rw [e, hp] at hy
      intro hm
      exact hy (by simp [hm])
    have hfound : (countFound found (st.numConsonants, hc)).2 = true → hc = true ∨ (Pair f.partCopy ∨ EndsC f.partCopy) ∨
        (did = false ∧ ∃ a, f.part = [a] ∧ isVowel a = false) := by
      intro hcf
      rcases countFound_cluster hcf with h | ⟨p, hpm, h1, h2, h3⟩
      · exact .inl h
      · right
        cases hcan : f.canBeRafsi with
        | false => rw [hcan] at hfd; cases hfd; simp at hpm
        | true =>
          rw [hcan, if_pos rfl] at hfd
          cases did with
          | true =>
            left
            obtain ⟨hj, hch⟩ := jvokaha2_ok ((tryKaha_ok hfd).1 rfl).1
            rw [← hj] at hyc ⊢
            exact chop_cluster hch hyc p hpm h1 h2 h3
          | false =>
            rcases (tryKaha_ok hfd).2 rfl with rfl | rfl
            · simp at hpm
              subst hpm
              rcases tarmi_cluster h1 h2 h3 with h | h | h | h
              · exact .inl (.inl (hpart h))
              · left
                right
                rw [hfp] at h
                cases hd : f.didAddA with
                | false => rw [hd] at h; simpa using h
                | true =>
                  exfalso
                  rw [hd] at h
                  obtain ⟨c, hc, hcc⟩ := h
                  simp at hc
                  subst hc
                  revert hcc; decide
              · exact .inr ⟨rfl, h⟩
              · exfalso
                rw [hfp] at h
                rcases List.mem_append.1 h with h | h
                · exact hyc h
                · split at h
                  · revert h; decide
                  · cases h
            · simp at hpm
    have fin : hc = true ∨ (Pair f.partCopy ∨ EndsC f.partCopy) →
        st.hasCluster = true ∨ st.consonantBeforeBreak = true ∨ Pair part0 ∨ EndsC part0 := by
      rintro (h | h)
      · rcases hcc h with h | h
        · exact .inl h
        · exact .inr (.inl h)
      · exact .inr (.inr (hcopy h))
    rcases hcase with ⟨rfl, -, -, rfl⟩ | ⟨rfl, shape, p0, hch, -, hp0, rfl⟩
    · refine ⟨fun h => ?_, by simp⟩
      rcases hfound h with h | h | ⟨h, -⟩
      · exact fin (.inl h)
      · exact fin (.inr h)
      · cases h
    · refine ⟨fun h => ?_, by simp⟩
      obtain ⟨-, ⟨n, hsyl, -⟩, hz, -⟩ := checkZihevlaOrRafsi_shape hch
      by_cases hsh : shape = .zihevla
      · obtain ⟨u, ch, t, hfc⟩ := hz hsh
        exact fin (.inr (.inl (hpart (firstCluster_pair hfc))))
      · simp only [hsh, if_false] at h
        rcases hfound h with h | h | ⟨-, a, ha, hva⟩
        · exact fin (.inl h)
        · exact fin (.inr h)
        · refine fin (.inr (.inr ?_))
          have hadd : f.didAddA = false := by
            cases hd : f.didAddA with
            | false => rfl
            | true =>
              exfalso
              rw [hd] at hfp
              have hl : f.part.getLast? = some 'a' := by rw [hfp]; simp
              rw [ha] at hl
              simp at hl
              subst hl
              revert hva; decide
          rw [hadd] at hfp
          simp only [Bool.false_eq_true, if_false, List.append_nil] at hfp
          rw [ha] at hfp
          refine ⟨a, by rw [← hfp]; rfl, ?_⟩
          have hya : a ≠ '\'' := by
            rintro rfl
            have htr : f.trailingH = false := by
              cases ht : f.trailingH with
              | false => rfl
              | true =>
                obtain ⟨l, hl, hlv⟩ := htv ht
                rw [← hfp] at hl
                cases hl
                revert hlv; decide
            apply hnq htr
            rw [hp, ← hfp, htr]
            rfl
          generalize hv : f.part = v at hsyl
          rw [ha] at hv
          have hvow : ∀ {s w : Str} {c : Char} {t : Str}, s = c :: t → Vowel c → v = s ++ w → False := by
            rintro s w c t rfl hc rfl
            simp at hv
            rw [← hv.1] at hc
            rw [(isVowel_iff a).2 hc] at hva
            cases hva
          cases hsyl with
          | nil => cases hv
          | letter hl _ =>
            cases hv
            exact hl.resolve_right hya
          | nucleus _ hn _ =>
            obtain ⟨c, t, e, hc⟩ := nucleus_head hn
            exact (hvow e hc rfl).elim
          | glided _ hn _ =>
            obtain ⟨c, t, e, hc⟩ := glided_head hn
            exact (hvow e hc rfl).elim

/-- Without experimental rafsi, a part begins with a consonant or has a cluster. -/
theorem analysePart_noCluster {R : Rec} {ctx : ACtx} {i : Nat} {part0 : Str} {st st' : AState}
    (h : analysePart R ctx i part0 st = .ok st') (hy : 'y' ∉ part0) (he : ctx.s.expRafsi = false) :
    (∃ c t, part0 = c :: t ∧ Consonant c) ∨ Pair part0 := by
  obtain ⟨part, lead, hs, hcase⟩ := analysePart_ok h
  obtain ⟨hne, h0, hl, -⟩ := stripLeadingH_ok hs
  have key : (∃ c t, part = c :: t ∧ Consonant c) ∨ Pair part := by
    rcases hcase with ⟨hcvc, rfl⟩ | ⟨-, c0, f, found, did, hc0, hf, hfd, hcase⟩
    · obtain ⟨a, b, c, rfl, ha, -⟩ := tarmi_cvc.1 hcvc
      exact .inl ⟨a, [b, c], rfl, (isConsonant_iff a).1 ha⟩
    · obtain ⟨hp, hfp, -⟩ := partForm_ok hf
      dsimp only at hcase
      rcases hcase with ⟨rfl, -⟩ | ⟨rfl, shape, p0, hch, -⟩
      · left
        have hcan : f.canBeRafsi = true := by
          cases hcb : f.canBeRafsi with
          | true => rfl
          | false => rw [hcb] at hfd; simp at hfd
        rw [if_pos hcan] at hfd
        obtain ⟨hj, hn, -⟩ := (tryKaha_ok hfd).1 rfl
        obtain ⟨hj, hch⟩ := jvokaha2_ok hj
        have hyc : 'y' ∉ join found := by
          rw [hj]
          intro hm
          apply hy
          rw [h0]
          have : 'y' ∈ part := by rw [hp]; simp [hm]
          cases lead <;> simp [this]
        rcases chop_next hch hyc with e | ⟨c, t, e, hc⟩
        · exact absurd e hn
        · rw [hj] at e
          exact ⟨c, _, by rw [hp, e]; rfl, hc⟩
      · right
        obtain ⟨-, -, hz, hr⟩ := checkZihevlaOrRafsi_shape hch
        have hsh : shape = .zihevla := by
          cases shape with
          | zihevla => rfl
          | rafsi => have := (hr rfl).1; simp [he] at this
        obtain ⟨u, ch, t, hfc⟩ := hz hsh
        have hpp := firstCluster_pair hfc
        rw [hp]
        refine Pair.right ?_
        rw [hfp] at hpp
        split at hpp
        · exact Pair.drop_vowel hpp (by decide)
        · simpa using hpp
  rw [h0]
  cases lead with
  | false => exact key
  | true =>
    right
    rcases key with ⟨c, t, e, hc⟩ | h
    · obtain ⟨v, t', e', hv⟩ := hl rfl
      rw [e] at e'
      cases e'
      exact absurd hc (vowel_not_consonant ((isVowel_iff _).1 hv))
    · exact Pair.left (u := ['\'']) h

/-- What the loop over the parts establishes, for a property `P` of texts that a consonant before a y brings about. -/
theorem analyseLoop_cluster {R : Rec} {ctx : ACtx} {P : Str → Prop} (hm : ∀ {t u}, P t → P (t ++ u)) (hp : ∀ {t}, Pair t → P t)
    (hs : ∀ {t part : Str} {i : Nat} {st st' : AState}, EndsC t → 'y' ∉ part → analysePart R ctx (i + 1) part st = .ok st' → P (t ++ 'y' :: part))
    {parts : List Str} : ∀ {i : Nat} {st st' : AState} {t : Str}, analyseLoop R ctx (i + 1) parts st = .ok st' → (∀ p ∈ parts, 'y' ∉ p) →
      (st.hasCluster = true → P t ∨ EndsC t) → (st.consonantBeforeBreak = true → EndsC t) →
      (st'.hasCluster = true → P (t ++ parts.flatMap (fun q => 'y' :: q)) ∨ EndsC (t ++ parts.flatMap (fun q => 'y' :: q))) := by
  induction parts with
  | nil => intro i st st' t h _ h1 _; cases h; simpa using h1
  | cons p ps ih =>
    intro i st st' t h hy h1 h2
    unfold analyseLoop at h
    obtain ⟨st1, h3, h⟩ := bind_ok h
    obtain ⟨h4, h5⟩ := analysePart_cluster h3 (hy p (by simp))
    have hend : EndsC t → P (t ++ 'y' :: p) := fun he => hs he (hy p (by simp)) h3
    have hep : EndsC p → EndsC (t ++ 'y' :: p) := fun he => by
      have := EndsC.left (u := t ++ ['y']) he
      simpa using this
    have := ih h (fun q hq => hy q (List.mem_cons_of_mem _ hq)) (t := t ++ 'y' :: p) ?_ (fun hcb => hep (h5 hcb))
    · simpa using this
    · intro hc
      rcases h4 hc with h | h | h | h
      · rcases h1 h with h | h
        · exact .inl (hm h)
        · exact .inl (hend h)
      · exact .inl (hend (h2 h))
      · left
        have := Pair.left (u := t ++ ['y']) h
        exact hp (by simpa using this)
      · exact .inr (hep h)

theorem analyseLoop_parts {R : Rec} {ctx : ACtx} {P : Str → Prop} (hm : ∀ {t u}, P t → P (t ++ u)) (hp : ∀ {t}, Pair t → P t)
    (hs : ∀ {t part : Str} {i : Nat} {st st' : AState}, EndsC t → 'y' ∉ part → analysePart R ctx (i + 1) part st = .ok st' → P (t ++ 'y' :: part))
    {w : Str} {st : AState} (h : analyseLoop R ctx 0 (splitOn 'y' w) {} = .ok st) (hc : st.hasCluster = true) : P w ∨ EndsC w := by
  have hy := splitOn_not_mem 'y' w
  have hj := joinSep_splitOn 'y' w
  cases he : splitOn 'y' w with
  | nil => exact absurd he (splitOn_ne_nil _ _)
  | cons p ps =>
    rw [he] at h hy hj
    unfold analyseLoop at h
    obtain ⟨st1, h1, h⟩ := bind_ok h
    obtain ⟨h2, h3⟩ := analysePart_cluster h1 (hy p (by simp))
    have := analyseLoop_cluster hm hp hs h (fun q hq => hy q (List.mem_cons_of_mem _ hq)) (t := p) ?_ h3 hc
    · rw [← hj]; exact this
    · intro hcl
      rcases h2 hcl with h | h | h | h
      · cases h
      · cases h
      · exact .inl (hp h)
      · exact .inr h

end Jvotci
