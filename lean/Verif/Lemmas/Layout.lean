import Verif.Lemmas.Forms

/-!
# Helper lemmas: how the search lays out the rafsi of a lujvo
-/

namespace Jvotci

open Spec

/-! ## Shapes -/

theorem pattern_cons {a : Char} {w : Str} : pattern (a :: w) =
    (if Vowel a then 'V' else if Consonant a then 'C' else if a = '\'' then a else '?') :: pattern w := rfl

theorem pat_v {a : Char} : (if Vowel a then 'V' else if Consonant a then 'C' else if a = '\'' then a else '?') = 'V' ↔ isVowel a = true := by
  rw [isVowel_iff]
  split
  · simp [*]
  · rename_i h
    simp only [h, iff_false]
    split
    · decide
    · split
      · rename_i e; subst e; decide
      · decide

theorem pat_c {a : Char} : (if Vowel a then 'V' else if Consonant a then 'C' else if a = '\'' then a else '?') = 'C' ↔ isConsonant a = true := by
  rw [isConsonant_iff]
  split
  · rename_i h
    have := vowel_not_consonant h
    simp only [this, iff_false]; decide
  · split
    · simp [*]
    · rename_i h
      simp only [h, iff_false]
      split
      · rename_i e; subst e; decide
      · decide

theorem pat_h {a : Char} : (if Vowel a then 'V' else if Consonant a then 'C' else if a = '\'' then a else '?') = '\'' ↔ a = '\'' := by
  constructor
  · intro h
    split at h
    · exact absurd h (by decide)
    · split at h
      · exact absurd h (by decide)
      · split at h
        · assumption
        · exact absurd h (by decide)
  · rintro rfl; decide

theorem pattern_nil {w : Str} : pattern w = [] ↔ w = [] := by simp [pattern]

theorem pattern_eq_cons {w : Str} {p : Char} {ps : Str} : pattern w = p :: ps ↔
    ∃ a v, w = a :: v ∧ (if Vowel a then 'V' else if Consonant a then 'C' else if a = '\'' then a else '?') = p ∧ pattern v = ps := by
  cases w with
  | nil => simp [pattern]
  | cons a w =>
    rw [pattern_cons]
    constructor
    · intro h
      simp only [List.cons.injEq] at h
      exact ⟨a, w, rfl, h⟩
    · rintro ⟨a', v, e, h1, h2⟩
      cases e
      rw [h1, h2]

theorem pattern_cvv {x : Str} : pattern x = s%"CVV" ↔ rafsiTarmi x = .cvv := by
  rw [tarmi_cvv]; simp only [pattern_eq_cons, pattern_nil, pat_c, pat_v]; grind
theorem pattern_cvc {x : Str} : pattern x = s%"CVC" ↔ rafsiTarmi x = .cvc := by
  rw [tarmi_cvc]; simp only [pattern_eq_cons, pattern_nil, pat_c, pat_v]; grind
theorem pattern_ccv {x : Str} : pattern x = s%"CCV" ↔ rafsiTarmi x = .ccv := by
  rw [tarmi_ccv]; simp only [pattern_eq_cons, pattern_nil, pat_c, pat_v]; grind
theorem pattern_cvhv {x : Str} : pattern x = s%"CV'V" ↔ rafsiTarmi x = .cvhv := by
  rw [tarmi_cvhv]; simp only [pattern_eq_cons, pattern_nil, pat_c, pat_v, pat_h]; grind
theorem pattern_cvcc {x : Str} : pattern x = s%"CVCC" ↔ rafsiTarmi x = .cvcc := by
  rw [tarmi_cvcc]; simp only [pattern_eq_cons, pattern_nil, pat_c, pat_v]; grind
theorem pattern_ccvc {x : Str} : pattern x = s%"CCVC" ↔ rafsiTarmi x = .ccvc := by
  rw [tarmi_ccvc]; simp only [pattern_eq_cons, pattern_nil, pat_c, pat_v]; grind
theorem pattern_cvccv {x : Str} : pattern x = s%"CVCCV" ↔ rafsiTarmi x = .cvccv := by
  rw [tarmi_cvccv]; simp only [pattern_eq_cons, pattern_nil, pat_c, pat_v]; grind
theorem pattern_ccvcv {x : Str} : pattern x = s%"CCVCV" ↔ rafsiTarmi x = .ccvcv := by
  rw [tarmi_ccvcv]; simp only [pattern_eq_cons, pattern_nil, pat_c, pat_v]; grind

theorem shapeScore_tarmi (x : Str) : shapeScore x = if rafsiTarmi x = .other then 0 else (rafsiTarmi x).score := by
  unfold shapeScore
  simp only [pattern_cvccv, pattern_cvcc, pattern_ccvcv, pattern_ccvc, pattern_cvc, pattern_cvhv, pattern_ccv, pattern_cvv]
  cases rafsiTarmi x <;> rfl

theorem pattern_append {u v : Str} : pattern (u ++ v) = pattern u ++ pattern v := by simp [pattern]

theorem tiebreak_tie (w : Str) : tiebreak w = if TieShape w then 1 else 0 := by
  unfold tiebreak
  have hsplit : w = slice w 0 3 ++ w.drop 3 := by simp [slice]
  have : (rafsiTarmi (slice w 0 3) = .cvv ∧
     (rafsiTarmi (w.drop 3) = .ccv ∨ rafsiTarmi (w.drop 3) = .ccvc ∨
      rafsiTarmi (w.drop 3) = .cvc ∨ rafsiTarmi (w.drop 3) = .cvcc)) ↔ TieShape w := by
    rw [← pattern_cvv, ← pattern_ccv, ← pattern_ccvc, ← pattern_cvc, ← pattern_cvcc]
    unfold TieShape
    have key : ∀ t : Str, pattern w = s%"CVV" ++ t ↔ pattern (slice w 0 3) = s%"CVV" ∧ pattern (w.drop 3) = t := by
      intro t
      constructor
      · intro h
        have h1 : pattern (slice w 0 3) = slice (pattern w) 0 3 := by simp [pattern, slice, List.map_take]
        have h2 : pattern (w.drop 3) = (pattern w).drop 3 := by simp [pattern, List.map_drop]
        rw [h1, h2, h]
        exact ⟨rfl, rfl⟩
      · rintro ⟨h1, h2⟩
        rw [hsplit, pattern_append, h1, h2]
    have k1 := key s%"CCV"
    have k2 := key s%"CCVC"
    have k3 := key s%"CVC"
    have k4 := key s%"CVCC"
    simp only [List.cons_append, List.nil_append] at k1 k2 k3 k4
    simp only [List.mem_cons, List.not_mem_nil, or_false, k1, k2, k3, k4]
    grind
  simp only [this]

/-! ## Forms -/

theorem isHyphen_all {suf : Str} (h : suf = [] ∨ suf = s%"y" ∨ suf = s%"'y" ∨ suf = s%"'") : suf.all isHyphenLetter = true := by
  rcases h with rfl | rfl | rfl | rfl <;> decide

theorem FormKind.suf {s : Settings} {f l : Bool} {x suf : Str} {n : Nat} (h : FormKind s f l x suf n) :
    (suf = [] ∨ suf = s%"y" ∨ suf = s%"'y" ∨ suf = s%"'") ∧ (f = false → suf ≠ s%"'") := by
  cases h with
  | cvv _ h => rcases h with rfl | ⟨rfl, hf⟩ | ⟨rfl, hf, -⟩ <;> simp [*]
  | ccv _ h => rcases h with rfl | rfl <;> simp
  | cvc _ h => rcases h with rfl | ⟨rfl, hf⟩ <;> simp
  | short _ _ h => rcases h with ⟨rfl, -⟩ | ⟨rfl, -⟩ <;> simp
  | long _ _ h => rcases h with ⟨rfl, -⟩ | ⟨rfl, -⟩ <;> simp
  | exp _ _ _ h => rcases h with ⟨rfl, -⟩ | ⟨rfl, -, hf⟩ | ⟨rfl, -, hf⟩ <;> simp [*]

theorem prefixOf_cases (f : Bool) (x : Str) : prefixOf f x = [] ∨ prefixOf f x = s%"'" := by
  unfold prefixOf; split <;> simp

theorem stripBoth_skip {p : Char → Bool} {u w : Str} (h : u.all p = true) : stripBoth p (u ++ w) = stripBoth p w := by
  unfold stripBoth
  congr 3
  induction u with
  | nil => rfl
  | cons a u ih => simp at h; simp [h.1]; exact ih (by simpa using h.2)

theorem Clean.strip {x pre suf : Str} (h : Clean x) (hp : pre.all isHyphenLetter = true) (hs : suf.all isHyphenLetter = true) :
    stripHyphens (pre ++ x ++ suf) = x := by
  unfold stripHyphens
  rw [List.append_assoc, stripBoth_skip hp]
  refine stripBoth_clean ?_ ?_ h.ne hs
  · intro c hc
    obtain ⟨d, hd, h⟩ := h.first
    rw [hc] at hd; cases hd
    exact hyphenLetter_false h
  · intro c hc
    obtain ⟨d, hd, h⟩ := h.last
    rw [hc] at hd; cases hd
    exact hyphenLetter_false h

theorem Form.strip {s : Settings} {f l : Bool} {x : Str} {o : RafsiOpt} (h : Form s f l x o) : stripHyphens o.1 = x := by
  obtain ⟨hx, suf, hk, e⟩ := h
  rw [e]
  refine hx.strip ?_ (isHyphen_all hk.suf.1)
  rcases prefixOf_cases f x with h | h <;> rw [h] <;> decide

/-- The core of a form has no hyphen shape. -/
theorem FormKind.not_hyphen {s : Settings} {f l : Bool} {x suf : Str} {n : Nat} (h : FormKind s f l x suf n) : rafsiTarmi x ≠ .hyphen := by
  intro e
  have hlen : x.length ≤ 2 := by
    rcases tarmi_hyphen.1 e with ⟨a, rfl, -⟩ | rfl <;> simp
  cases h with
  | cvv h _ => rcases h with h | h <;> rw [h] at e <;> cases e
  | ccv h _ => rw [h] at e; cases e
  | cvc h _ => rw [h] at e; cases e
  | short h => omega
  | long h => omega
  | exp h => rw [h] at e; cases e

theorem tarmi_length {x : Str} (h1 : rafsiTarmi x ≠ .other) (h2 : rafsiTarmi x ≠ .hyphen) : 3 ≤ x.length := by
  cases h : rafsiTarmi x with
  | other => exact absurd h h1
  | hyphen => exact absurd h h2
  | cvv => obtain ⟨_, _, _, rfl, -⟩ := tarmi_cvv.1 h; simp
  | cvc => obtain ⟨_, _, _, rfl, -⟩ := tarmi_cvc.1 h; simp
  | ccv => obtain ⟨_, _, _, rfl, -⟩ := tarmi_ccv.1 h; simp
  | cvhv => obtain ⟨_, _, _, rfl, -⟩ := tarmi_cvhv.1 h; simp
  | cvcc => obtain ⟨_, _, _, _, rfl, -⟩ := tarmi_cvcc.1 h; simp
  | ccvc => obtain ⟨_, _, _, _, rfl, -⟩ := tarmi_ccvc.1 h; simp
  | cvccv => obtain ⟨_, _, _, _, _, rfl, -⟩ := tarmi_cvccv.1 h; simp
  | ccvcv => obtain ⟨_, _, _, _, _, rfl, -⟩ := tarmi_ccvcv.1 h; simp

/-- A core of one letter is a vowel. -/
theorem FormKind.single {s : Settings} {f l : Bool} {x suf : Str} {n : Nat} (h : FormKind s f l x suf n) {c : Char}
    (e : x = [c]) : isVowel c = true := by
  have := h.not_hyphen
  rw [e] at this
  cases hv : isVowel c with
  | true => rfl
  | false => exact absurd (tarmi_hyphen.2 (.inl ⟨c, rfl, hv⟩)) this

theorem Form.length {s : Settings} {l : Bool} {x : Str} {o : RafsiOpt} (h : Form s false l x o) : 2 ≤ o.1.length := by
  obtain ⟨hx, suf, hk, e⟩ := h
  rw [e]
  match x, hx.ne with
  | [c], _ =>
    have hv := hk.single rfl
    simp [prefixOf, hv, isGlide]
  | a :: b :: x, _ => simp; omega

theorem Form.length3 {s : Settings} {f l : Bool} {x : Str} {o : RafsiOpt} (h : Form s f l x o)
    (ht : tarmiIgnoringHyphen o.1 ≠ .other) : 3 ≤ o.1.length := by
  unfold tarmiIgnoringHyphen at ht
  rw [h.strip] at ht
  obtain ⟨hx, suf, hk, e⟩ := h
  have := tarmi_length ht hk.not_hyphen
  rw [e]; simp; omega

/-! ## Joints -/

/-- What may lie between two rafsi. -/
def Gap (g : Str) : Prop := g = [] ∨ Hyphen g

instance : DecidablePred Gap := fun g => inferInstanceAs (Decidable (g = [] ∨ Hyphen g))

/-- The letters around a joint: `w`, the gap `g`, the rafsi `x`. -/
def JointOk (mz : Bool) (w g x : Str) : Prop :=
  ∃ l c t, w.getLast? = some l ∧ x = c :: t ∧ (t = [] → Vowel c) ∧
    (∀ a b, Adjacent (l :: (g ++ [c])) a b → Consonant a → Consonant b → PermissiblePair mz a b) ∧
    (l :: (g ++ x)).take 3 ∉ bannedTriples

/-- The rafsi `xs` laid out with gaps between them, and their places. -/
inductive Layout (mz : Bool) : Str → List Str → List (Nat × Nat) → Prop
  | one {x} : Clean x → Layout mz x [x] [(0, x.length)]
  | snoc {w xs ix g x} : Layout mz w xs ix → Gap g → JointOk mz w g x → Clean x →
      Layout mz (w ++ g ++ x) (xs ++ [x]) (ix ++ [(w.length + g.length, w.length + g.length + x.length)])

theorem Layout.last {mz : Bool} {w : Str} {xs : List Str} {ix : List (Nat × Nat)} (h : Layout mz w xs ix) :
    ∃ c, w.getLast? = some c ∧ (Vowel c ∨ Consonant c) := by
  cases h with
  | one h => exact h.last
  | snoc _ _ _ h =>
    obtain ⟨c, hc, h2⟩ := h.last
    exact ⟨c, by rw [getLast?_append_ne _ h.ne]; exact hc, h2⟩

/-- The ways a hyphen can be chosen after the letters `suf`. -/
def HyOk (suf hy : Str) (lb first : Char) : Prop :=
  (suf = s%"'" ∧ hy = s%"y") ∨ (suf ≠ s%"'" ∧ hy = []) ∨
  (suf = [] ∧ Vowel lb ∧ (hy = s%"'y" ∨ hy = s%"n" ∧ first = 'r' ∨ hy = s%"r" ∧ first ≠ 'r'))

theorem adjacent_cons {a b c : Char} {t : Str} : Adjacent (a :: b :: t) c d ↔ (c = a ∧ d = b) ∨ Adjacent (b :: t) c d := by
  constructor
  · rintro ⟨u, v, e⟩
    cases u with
    | nil => simp at e; exact .inl ⟨e.1.symm, e.2.1.symm⟩
    | cons x u => simp at e; exact .inr ⟨u, v, e.2⟩
  · rintro (⟨rfl, rfl⟩ | ⟨u, v, e⟩)
    · exact ⟨[], t, rfl⟩
    · exact ⟨a :: u, v, by simp [e]⟩

theorem adjacent_single {a c d : Char} : ¬ Adjacent [a] c d := by
  rintro ⟨u, v, e⟩
  have := congrArg List.length e
  simp at this
  omega

theorem adjacent_nil {c d : Char} : ¬ Adjacent [] c d := by
  rintro ⟨u, v, e⟩
  have := congrArg List.length e
  simp at this

/-- The letters-only part of the score. -/
def weight (w : Str) : Int :=
  1000 * (w.length : Int) + 100 * (countChar w 'y' : Int) -
    ((countChar w 'a' : Int) + countChar w 'e' + countChar w 'i' + countChar w 'o' + countChar w 'u')

theorem weight_append (u v : Str) : weight (u ++ v) = weight u + weight v := by
  unfold weight countChar
  simp only [List.length_append, List.count_append]
  omega

theorem weight_count (w : Str) : weight w = 1000 * (w.length : Int) + 100 * (countChar w 'y' : Int) - vowelCount w := by
  unfold weight
  congr 1
  induction w with
  | nil => rfl
  | cons c w ih =>
    have key : ∀ d : Char, countChar (c :: w) d = countChar w d + if c = d then 1 else 0 := by
      intro d
      unfold countChar
      rw [List.count_cons]
      simp
    by_cases hc : Vowel c
    · have : vowelCount (c :: w) = vowelCount w + 1 := by simp [vowelCount, hc]
      rw [this]
      simp only [key]
      simp only [Vowel, List.mem_cons, List.not_mem_nil, or_false] at hc
      rcases hc with rfl | rfl | rfl | rfl | rfl <;> simp <;> omega
    · have : vowelCount (c :: w) = vowelCount w := by simp [vowelCount, hc]
      rw [this]
      simp only [key]
      simp only [Vowel] at hc
      rw [if_neg, if_neg, if_neg, if_neg, if_neg] <;> grind

theorem score_weight (w : Str) : score w = weight w - 10 * (shapeScore (stripHyphens w) : Int) := by
  unfold score weight
  rw [shapeScore_tarmi]
  unfold tarmiIgnoringHyphen
  dsimp only
  omega

theorem HyOk.score {suf hy : Str} {lb first : Char} (h : HyOk suf hy lb first) : score hy = weight hy := by
  have : hy = [] ∨ hy = s%"y" ∨ hy = s%"r" ∨ hy = s%"n" ∨ hy = s%"'y" := by
    rcases h with ⟨-, h⟩ | ⟨-, h⟩ | ⟨-, -, h | ⟨h, -⟩ | ⟨h, -⟩⟩ <;> simp [h]
  rcases this with rfl | rfl | rfl | rfl | rfl <;> decide

theorem joint_step {s : Settings} {o : CombineOpts} {body suf x : Str} {l : Bool} {r : RafsiOpt} {lc : Nat} {sc : Int}
    {il : List (Nat × Nat)} {tos : Tos} {c : Cand} {lb : Char} {Q : Str → Prop}
    (h : combine o (body ++ suf) r.1 lc r.2 sc il tos = .ok (some c))
    (hl : body.getLast? = some lb) (hlb : Vowel lb ∨ Consonant lb)
    (hs : suf = [] ∨ suf = s%"y" ∨ suf = s%"'y" ∨ suf = s%"'")
    (hf : Form s false l x r)
    (hhy : ∀ last first hy, (body ++ suf).getLast? = some last → r.1.head? = some first →
      (first = '\'' → last = 'y' ∨ last = '\'') → (tarmiIgnoringHyphen r.1 = .other → last = 'y' ∨ last = '\'') →
      chooseHyphen o (body ++ suf) last first (tarmiIgnoringHyphen r.1) = some hy → HyOk suf hy lb first ∧ Q hy) :
    ∃ hy suf', Gap (suf ++ hy ++ prefixOf false x) ∧ JointOk o.allowMz body (suf ++ hy ++ prefixOf false x) x ∧ Clean x ∧
      c.lujvo = body ++ (suf ++ hy ++ prefixOf false x) ++ x ++ suf' ∧ FormKind s false l x suf' r.2 ∧
      c.indices = il ++ [(body.length + (suf ++ hy ++ prefixOf false x).length,
        body.length + (suf ++ hy ++ prefixOf false x).length + x.length)] ∧
      c.score = sc + weight hy + weight r.1 - 10 * (shapeScore x : Int) - tiebreak c.lujvo ∧
      c.lujvo = body ++ suf ++ hy ++ r.1 ∧
      (suf = [] → prefixOf false x = []) ∧ Q hy ∧ ∃ first, HyOk suf hy lb first := by
  obtain ⟨last, first, hy, new, h1, h2, -, h4, h5, h6, h7, h8, -, -, -, h12, h13, h14⟩ := combine_some h
  obtain ⟨hok, hQ⟩ := hhy last first hy h1 h2 h5 h7 h8
  have hstrip := hf.strip
  obtain ⟨hx, suf', hk, e⟩ := hf
  obtain ⟨c0, t0, hxc⟩ : ∃ c t, x = c :: t := by
    cases x with
    | nil => exact absurd rfl hx.ne
    | cons a x => exact ⟨a, x, rfl⟩
  have hc0 : Vowel c0 ∨ Consonant c0 := by
    obtain ⟨d, hd, h⟩ := hx.first
    rw [hxc] at hd; cases hd; exact h
  have hlby : lb ≠ 'y' ∧ lb ≠ '\'' := by
    rcases hlb with h | h
    · exact vowel_ne_y' h
    · exact consonant_ne_y h
  have hfirst : (prefixOf false x = [] ∧ first = c0) ∨ (prefixOf false x = s%"'" ∧ first = '\'') := by
    rcases prefixOf_cases false x with hp | hp
    · left
      refine ⟨hp, ?_⟩
      rw [e, hp, hxc] at h2; simpa using h2.symm
    · right
      refine ⟨hp, ?_⟩
      rw [e, hp] at h2; simpa using h2.symm
  have hc0q : c0 ≠ '\'' := by
    rcases hc0 with h | h
    · exact (vowel_ne_y' h).2
    · exact (consonant_ne_y h).2
  have hnil : suf = [] → last = lb := by
    rintro rfl
    rw [List.append_nil, hl] at h1; cases h1; rfl
  have hpre : suf = [] → prefixOf false x = [] := by
    intro hsn
    rcases hfirst with h | ⟨-, h⟩
    · exact h.1
    · rcases h5 h with h | h <;> rw [hnil hsn] at h
      · exact absurd h hlby.1
      · exact absurd h hlby.2
  refine ⟨hy, suf', ?_, ?_, hx, ?_, hk, ?_, ?_, ?_, hpre, hQ, first, hok⟩
  · rcases hok with ⟨rfl, rfl⟩ | ⟨hne, rfl⟩ | ⟨rfl, -, hh⟩
    · rcases prefixOf_cases false x with h | h <;> rw [h] <;> decide
    · rcases hs with rfl | rfl | rfl | rfl
      · rw [hpre rfl]; decide
      · rcases prefixOf_cases false x with h | h <;> rw [h] <;> decide
      · rcases prefixOf_cases false x with h | h <;> rw [h] <;> decide
      · exact absurd rfl hne
    · rw [hpre rfl]
      rcases hh with rfl | ⟨rfl, -⟩ | ⟨rfl, -⟩ <;> decide
  · refine ⟨lb, c0, t0, hl, hxc, fun ht => (isVowel_iff _).1 (hk.single (by rw [hxc, ht])), ?_⟩
    -- a gap whose letters are no consonants
    have soft : ∀ g0 g, (∀ d ∈ g0 :: g, ¬ Consonant d) →
        (∀ a b, Adjacent (lb :: ((g0 :: g) ++ [c0])) a b → Consonant a → Consonant b → PermissiblePair o.allowMz a b) ∧
        (lb :: ((g0 :: g) ++ x)).take 3 ∉ bannedTriples := by
      intro g0 g hg
      refine ⟨?_, ?_⟩
      · intro a b hab ha hb
        exfalso
        obtain ⟨u, v, e⟩ := hab
        cases u with
        | nil => simp at e; exact hg b (by rw [e.2.1]; simp) hb
        | cons d u =>
          simp only [List.cons_append, List.cons.injEq] at e
          have e2 : (g0 :: g) ++ [c0] = (u ++ [a]) ++ b :: v := by simp [← e.2]
          have : a ∈ g0 :: g := by
            rcases List.append_eq_append_iff.1 e2 with ⟨w, h, -⟩ | ⟨w, h, h'⟩
            · have hl1 := congrArg List.length e2
              have hl2 := congrArg List.length h
              simp at hl1 hl2
              have : w = [] := List.eq_nil_of_length_eq_zero (by omega)
              subst this
              rw [List.append_nil] at h
              rw [← h]; simp
            · rw [h]; simp
          exact hg a this ha
      · simp only [List.take_succ_cons, List.cons_append]
        have hg0 := hg g0 (by simp)
        intro hm
        obtain ⟨p, q, r', e3, h1', h2', h3'⟩ := banned_consonants hm
        simp only [List.cons.injEq] at e3
        rw [e3.2.1] at hg0
        exact hg0 ((isConsonant_iff _).1 h2')
    rcases hok with ⟨rfl, rfl⟩ | ⟨hne, rfl⟩ | ⟨rfl, hv, hh⟩
    · rcases prefixOf_cases false x with h | h <;> rw [h] <;> refine soft _ _ ?_ <;> decide
    · rcases hs with rfl | rfl | rfl | rfl
      · rw [hpre rfl]
        have hl' := hnil rfl
        subst hl'
        obtain ⟨-, hfc⟩ : prefixOf false x = [] ∧ first = c0 := by
          rcases hfirst with h | ⟨h, -⟩
          · exact h
          · rw [hpre rfl] at h; cases h
        subst hfc
        refine ⟨?_, ?_⟩
        · intro a b hab ha hb
          simp only [List.nil_append, List.append_nil] at hab
          rcases adjacent_cons.1 hab with ⟨rfl, rfl⟩ | h
          · exact validPairs_contains.1 (h4 ((isConsonant_iff _).2 ha) ((isConsonant_iff _).2 hb))
          · exact absurd h adjacent_single
        · intro hm
          have hsl : slice r.1 0 2 = (x ++ suf').take 2 := by rw [e, hpre rfl]; simp [slice]
          rw [hsl] at h6
          have hlen : x.length ≤ 1 ∨ (x ++ suf').take 2 = x.take 2 := by
            rcases Nat.lt_or_ge x.length 2 with h | h
            · left; omega
            · right; rw [List.take_append_of_le_length h]
          simp only [List.append_nil, List.nil_append, List.take_succ_cons] at hm
          rcases hlen with h | h
          · obtain ⟨p, q, e3, -⟩ := banned_first hm
            have := congrArg List.length e3
            simp at this
            omega
          · rw [h] at h6
            rw [banned_table] at h6
            rw [List.contains_eq_mem] at h6
            simp only [decide_eq_false_iff_not] at h6
            exact h6 hm
      · rcases prefixOf_cases false x with h | h <;> rw [h] <;> refine soft _ _ ?_ <;> decide
      · rcases prefixOf_cases false x with h | h <;> rw [h] <;> refine soft _ _ ?_ <;> decide
      · exact absurd rfl hne
    · rw [hpre rfl]
      obtain ⟨-, hfc⟩ : prefixOf false x = [] ∧ first = c0 := by
        rcases hfirst with h | ⟨h, -⟩
        · exact h
        · rw [hpre rfl] at h; cases h
      subst hfc
      have hnb : ∀ w : Str, (lb :: w).take 3 ∉ bannedTriples := by
        intro w hm
        rw [List.take_succ_cons] at hm
        obtain ⟨p, q, e3, -⟩ := banned_first hm
        simp only [List.cons.injEq] at e3
        rw [e3.1] at hv
        exact absurd hv (by decide)
      refine ⟨?_, hnb _⟩
      rcases hh with rfl | ⟨rfl, rfl⟩ | ⟨rfl, hr⟩
      · exact (soft '\'' s%"y" (by decide)).1
      · intro a b hab ha hb
        simp only [List.nil_append, List.append_nil, List.cons_append] at hab
        rcases adjacent_cons.1 hab with ⟨rfl, rfl⟩ | h
        · exact absurd ha (vowel_not_consonant hv)
        · rcases adjacent_cons.1 h with ⟨rfl, rfl⟩ | h
          · cases o.allowMz <;> decide
          · exact absurd h adjacent_single
      · intro a b hab ha hb
        simp only [List.nil_append, List.append_nil, List.cons_append] at hab
        rcases adjacent_cons.1 hab with ⟨rfl, rfl⟩ | h
        · exact absurd ha (vowel_not_consonant hv)
        · rcases adjacent_cons.1 h with ⟨rfl, rfl⟩ | h
          · exact r_pair hb hr
          · exact absurd h adjacent_single
  · rw [h13, e]; simp
  · rw [h14, hstrip]
    have : (if first = '\'' then 1 else 0) = (prefixOf false x).length := by
      rcases hfirst with ⟨h, h'⟩ | ⟨h, h'⟩
      · rw [h, h', if_neg hc0q]; rfl
      · rw [h, if_pos h']; rfl
    rw [this]
    simp only [List.length_append]
    congr 3 <;> omega
  · rw [h12, h13, hok.score, score_weight r.1, hstrip]
    omega
  · rw [h13]

/-! ## Candidates -/

/-- Six letters or more, or a vowel at the start: no `r`, `n` or `'y` will be put after it. -/
def Settled (w : Str) : Prop := 6 ≤ w.length ∨ ∃ c, w.head? = some c ∧ Vowel c

theorem strip_head {w : Str} {c : Char} (h : w.head? = some c) (hc : isHyphenLetter c = false) :
    (stripHyphens w).head? = some c := by
  cases w with
  | nil => cases h
  | cons a w =>
    simp at h; subst h
    unfold stripHyphens stripBoth
    have : (a :: w).dropWhile isHyphenLetter = a :: w := by simp [hc]
    rw [this, List.head?_reverse, List.reverse_cons]
    have key : ∀ u : Str, ((u ++ [a]).dropWhile isHyphenLetter).getLast? = some a := by
      intro u
      induction u with
      | nil => simp [hc]
      | cons b u ih =>
        rw [List.cons_append, List.dropWhile_cons]
        split
        · exact ih
        · rw [show b :: (u ++ [a]) = (b :: u) ++ [a] from rfl, List.getLast?_concat]
    exact key _

theorem vowel_tarmi {w : Str} {c : Char} (h : w.head? = some c) (hc : Vowel c) : rafsiTarmi w = .other := by
  have hnc : isConsonant c = false := isConsonant_false.2 (vowel_not_consonant hc)
  cases w with
  | nil => cases h
  | cons a w =>
    simp at h; subst h
    cases ht : rafsiTarmi (a :: w) with
    | other => rfl
    | hyphen =>
      rcases tarmi_hyphen.1 ht with ⟨b, e, hb⟩ | e
      · simp at e; rw [← e.1, isVowel_false] at hb; exact absurd hc hb
      · simp at e; rw [e.1] at hc; exact absurd hc (by decide)
    | cvv => obtain ⟨_, _, _, e, h, -⟩ := tarmi_cvv.1 ht; simp at e; rw [← e.1, hnc] at h; cases h
    | cvc => obtain ⟨_, _, _, e, h, -⟩ := tarmi_cvc.1 ht; simp at e; rw [← e.1, hnc] at h; cases h
    | ccv => obtain ⟨_, _, _, e, h, -⟩ := tarmi_ccv.1 ht; simp at e; rw [← e.1, hnc] at h; cases h
    | cvhv => obtain ⟨_, _, _, e, h, -⟩ := tarmi_cvhv.1 ht; simp at e; rw [← e.1, hnc] at h; cases h
    | cvcc => obtain ⟨_, _, _, _, e, h, -⟩ := tarmi_cvcc.1 ht; simp at e; rw [← e.1, hnc] at h; cases h
    | ccvc => obtain ⟨_, _, _, _, e, h, -⟩ := tarmi_ccvc.1 ht; simp at e; rw [← e.1, hnc] at h; cases h
    | cvccv => obtain ⟨_, _, _, _, _, e, h, -⟩ := tarmi_cvccv.1 ht; simp at e; rw [← e.1, hnc] at h; cases h
    | ccvcv => obtain ⟨_, _, _, _, _, e, h, -⟩ := tarmi_ccvcv.1 ht; simp at e; rw [← e.1, hnc] at h; cases h

theorem Settled.hyphen {o : CombineOpts} {w : Str} {last first : Char} {t : Tarmi} {hy : Str} (h : Settled w)
    (hl : last ≠ '\'') (hc : chooseHyphen o w last first t = some hy) : hy = [] := by
  rcases chooseHyphen_cases hc with ⟨e, -⟩ | ⟨-, e⟩ | ⟨-, h5, -, ht, -⟩
  · exact absurd e hl
  · exact e
  · rcases h with h | ⟨c, h, hv⟩
    · omega
    · have := strip_head h (hyphenLetter_false (.inl hv))
      unfold tarmiIgnoringHyphen at ht
      rw [vowel_tarmi this hv] at ht
      rcases ht with h | h <;> cases h

theorem Settled.append {w t : Str} (h : Settled w) : Settled (w ++ t) := by
  rcases h with h | ⟨c, h, hv⟩
  · left; simp; omega
  · right
    refine ⟨c, ?_, hv⟩
    cases w with
    | nil => cases h
    | cons a w => simpa using h

theorem Settled.tie {w t : Str} (h : Settled w) (ht : 2 ≤ t.length) : tiebreak (w ++ t) = 0 := by
  rw [tiebreak_tie, if_neg]
  intro hs
  unfold TieShape at hs
  rcases h with h | ⟨c, h, hv⟩
  · have hlen : (pattern (w ++ t)).length = w.length + t.length := by simp [pattern]
    simp only [List.mem_cons, List.not_mem_nil, or_false] at hs
    rcases hs with e | e | e | e <;> rw [e] at hlen <;> simp at hlen <;> omega
  · cases w with
    | nil => cases h
    | cons a w =>
      simp at h; subst h
      rw [List.cons_append, pattern_cons, if_pos hv] at hs
      simp at hs

theorem clustered_tarmi {x : Str} (h : Clustered x) : rafsiTarmi x ≠ .cvv ∧ rafsiTarmi x ≠ .cvhv := by
  obtain ⟨a, b, hab, ha, hb⟩ := h
  constructor
  · intro ht
    obtain ⟨p, q, r, rfl, h1, h2, h3⟩ := tarmi_cvv.1 ht
    rw [isVowel_iff] at h2 h3
    rcases adjacent_cons.1 hab with ⟨rfl, rfl⟩ | hab
    · exact vowel_not_consonant h2 hb
    · rcases adjacent_cons.1 hab with ⟨rfl, rfl⟩ | hab
      · exact vowel_not_consonant h3 hb
      · exact adjacent_single hab
  · intro ht
    obtain ⟨p, q, r, rfl, h1, h2, h3⟩ := tarmi_cvhv.1 ht
    rw [isVowel_iff] at h2 h3
    rcases adjacent_cons.1 hab with ⟨rfl, rfl⟩ | hab
    · exact vowel_not_consonant h2 hb
    · rcases adjacent_cons.1 hab with ⟨rfl, rfl⟩ | hab
      · exact absurd hb (by decide)
      · rcases adjacent_cons.1 hab with ⟨rfl, rfl⟩ | hab
        · exact vowel_not_consonant h3 hb
        · exact adjacent_single hab

theorem FormKind.cvv_cases {s : Settings} {f l : Bool} {x suf : Str} {n : Nat} (h : FormKind s f l x suf n)
    (ht : rafsiTarmi x = .cvv ∨ rafsiTarmi x = .cvhv) :
    (suf = [] ∨ suf = s%"'" ∧ f = true ∨ suf = s%"'y" ∧ f = false ∧ l = false) := by
  cases h with
  | cvv _ h => exact h
  | ccv h _ => rw [h] at ht; simp at ht
  | cvc h _ => rw [h] at ht; simp at ht
  | short _ h => have := clustered_tarmi h; grind
  | long _ h => have := clustered_tarmi h; grind
  | exp h => rw [h] at ht; simp at ht

theorem getLast_suf {w suf : Str} {lb last : Char} (hl : w.getLast? = some lb) (hlb : Vowel lb ∨ Consonant lb)
    (hs : suf = [] ∨ suf = s%"y" ∨ suf = s%"'y" ∨ suf = s%"'") (h : (w ++ suf).getLast? = some last) :
    (last = '\'' ↔ suf = s%"'") ∧ (suf = [] → last = lb) ∧ ((suf = s%"y" ∨ suf = s%"'y") → last = 'y') := by
  have hlby : lb ≠ 'y' ∧ lb ≠ '\'' := by
    rcases hlb with h | h
    · exact vowel_ne_y' h
    · exact consonant_ne_y h
  rcases hs with rfl | rfl | rfl | rfl
  · rw [List.append_nil, hl] at h
    cases h
    simp [hlby]
  · simp at h; subst h; simp
  · simp at h; subst h; simp
  · simp at h; subst h; simp

/-- The hyphen after the first form. -/
theorem first_hyOk {s : Settings} {o : CombineOpts} {x suf : Str} {n : Nat} {lb last first : Char} {hy : Str} {t : Tarmi}
    (hx : Clean x) (hk : FormKind s true false x suf n) (hl : x.getLast? = some lb)
    (h1 : (x ++ suf).getLast? = some last) (hc : chooseHyphen o (x ++ suf) last first t = some hy) : HyOk suf hy lb first := by
  obtain ⟨lb', hl', hlb⟩ := hx.last
  rw [hl] at hl'; cases hl'
  obtain ⟨hq, hnil, hyy⟩ := getLast_suf hl hlb hk.suf.1 h1
  rcases chooseHyphen_cases hc with ⟨e, e'⟩ | ⟨e, e'⟩ | ⟨e, h5, -, ht, hh⟩
  · exact .inl ⟨hq.1 e, e'⟩
  · exact .inr (.inl ⟨fun h => e (hq.2 h), e'⟩)
  · right; right
    unfold tarmiIgnoringHyphen at ht
    have hst := hx.strip (pre := []) (suf := suf) rfl (isHyphen_all hk.suf.1)
    rw [List.nil_append] at hst
    rw [hst] at ht
    have hsn : suf = [] := by
      rcases hk.cvv_cases ht with h | ⟨h, -⟩ | ⟨-, h, -⟩
      · exact h
      · exact absurd (hq.2 h) e
      · cases h
    refine ⟨hsn, ?_, ?_⟩
    · obtain ⟨d, hd, hdv⟩ := tarmi_last_vowel (x := x) (by rcases ht with h | h <;> simp [h])
      rw [hl] at hd; cases hd; exact hdv
    · rcases hh with ⟨h, -⟩ | ⟨h, h', -⟩ | ⟨h, h', -⟩
      · exact .inl h
      · exact .inr (.inl ⟨h, h'⟩)
      · exact .inr (.inr ⟨h, h'⟩)

/-- Two forms put together are settled. -/
theorem first_settled {s : Settings} {x suf hy x1 : Str} {n : Nat} {l : Bool} {r : RafsiOpt} {lb first : Char}
    (hx : Clean x) (hk : FormKind s true false x suf n) (hr : Form s false l x1 r) (hok : HyOk suf hy lb first)
    (ht : suf = [] → tarmiIgnoringHyphen r.1 ≠ .other) : Settled (x ++ suf ++ hy ++ r.1) := by
  have h2 := hr.length
  have h3 := hr.length3
  obtain ⟨c, hc, hcl⟩ := hx.first
  rcases hcl with hv | hcc
  · right
    refine ⟨c, ?_, hv⟩
    cases x with
    | nil => cases hc
    | cons a x => simpa using hc
  · left
    have hnil : suf = [] → 3 ≤ x.length → 6 ≤ (x ++ suf ++ hy ++ r.1).length := by
      intro h hx3
      have := h3 (ht h)
      simp; omega
    have hy1 : suf = s%"'" → 1 ≤ hy.length := by
      intro h
      rcases hok with ⟨-, rfl⟩ | ⟨h', -⟩ | ⟨h', -⟩
      · simp
      · exact absurd h h'
      · rw [h] at h'; cases h'
    have hlen : ∀ m, m ≤ x.length + suf.length + hy.length → 6 ≤ m + 2 → 6 ≤ (x ++ suf ++ hy ++ r.1).length := by
      intro m h1 h2; simp; omega
    have x3 : rafsiTarmi x ≠ .other → 3 ≤ x.length := fun h => tarmi_length h hk.not_hyphen
    have x2 : 2 ≤ x.length := by
      match x, hx.ne with
      | [d], _ =>
        simp at hc; subst hc
        have := hk.single rfl
        rw [isVowel_iff] at this
        exact absurd this (consonant_not_vowel hcc)
      | a :: b :: x, _ => simp
    cases hk with
    | cvv h h' =>
      have := x3 (by rcases h with h | h <;> rw [h] <;> simp)
      rcases h' with h' | ⟨rfl, -⟩ | ⟨-, h', -⟩
      · exact hnil h' this
      · have := hy1 rfl; simp; omega
      · cases h'
    | ccv h h' =>
      have := x3 (by rw [h]; simp)
      rcases h' with h' | rfl
      · exact hnil h' this
      · simp; omega
    | cvc h h' =>
      have := x3 (by rw [h]; simp)
      rcases h' with h' | ⟨rfl, -⟩
      · exact hnil h' this
      · simp; omega
    | short h _ h' =>
      rcases h' with ⟨rfl, -⟩ | ⟨-, h', -⟩
      · simp; omega
      · cases h'
    | long h _ h' =>
      rcases h' with ⟨rfl, -⟩ | ⟨-, h'⟩
      · simp; omega
      · cases h'
    | exp h _ _ h' =>
      rcases h' with ⟨-, h'⟩ | ⟨-, -, h'⟩ | ⟨rfl, -⟩
      · cases h'
      · cases h'
      · have := hy1 rfl; simp; omega

def sumShapes (xs : List Str) : Nat := (xs.map shapeScore).sum

/-- What is known of a candidate. -/
structure Laid (mz : Bool) (xs : List Str) (c : Cand) : Prop where
  body : ∃ body suf, c.lujvo = body ++ suf ∧ Layout mz body xs c.indices ∧ (suf = [] ∨ suf = s%"y" ∨ suf = s%"'y")
  settled : Settled c.lujvo
  total : ∃ tie : Int, (tie = 1 ∧ TieAt c.lujvo c.indices ∨ tie = 0 ∧ ¬ TieAt c.lujvo c.indices) ∧
    c.score = weight c.lujvo - 10 * (sumShapes xs : Int) - tie

theorem Layout.length {mz : Bool} {w : Str} {xs : List Str} {ix : List (Nat × Nat)} (h : Layout mz w xs ix) :
    ix.length = xs.length ∧ ∃ p, ix.getLast? = some p ∧ p.2 = w.length := by
  induction h with
  | one _ => exact ⟨rfl, _, rfl, rfl⟩
  | snoc _ _ _ _ ih =>
    refine ⟨by simp [ih.1], _, List.getLast?_concat .., by simp; omega⟩

theorem Layout.bounds {mz : Bool} {w : Str} {xs : List Str} {ix : List (Nat × Nat)} (h : Layout mz w xs ix) :
    ∀ p ∈ ix, p.1 < p.2 ∧ p.2 ≤ w.length := by
  induction h with
  | one h =>
    intro p hp
    simp at hp; subst hp
    exact ⟨List.length_pos_iff.2 h.ne, Nat.le_refl _⟩
  | snoc _ _ _ hx ih =>
    intro p hp
    rcases List.mem_append.1 hp with hp | hp
    · have := ih p hp
      simp; omega
    · simp at hp; subst hp
      have := List.length_pos_iff.2 hx.ne
      simp; omega

theorem tieShape_letters {w : Str} (h : TieShape w) : w.getLast? ≠ some 'y' := by
  intro e
  obtain ⟨u, rfl⟩ := List.getLast?_eq_some_iff.1 e
  unfold TieShape at h
  rw [pattern_append] at h
  have : pattern s%"y" = s%"?" := by decide
  rw [this] at h
  simp only [List.mem_cons, List.not_mem_nil, or_false] at h
  rcases h with h | h | h | h <;> (have := congrArg List.getLast? h; simp at this)

theorem Laid.two {s : Settings} {o : CombineOpts} {N : Nat} {r0 r1 : RafsiOpt} {c : Cand} {x0 x1 : Str} {l : Bool}
    (h : combine { o with tanruLen := N } r0.1 r1.1 r0.2 r1.2 (score r0.1) [(0, (stripHyphens r0.1).length)]
        (initialTos o.generateCmevla r0.1) = .ok (some c))
    (h0 : Form s true false x0 r0) (h1 : Form s false l x1 r1) : Laid o.allowMz [x0, x1] c := by
  have hstrip := h0.strip
  have hh0 := h0
  obtain ⟨hx, suf, hk, e⟩ := h0
  have hpre : prefixOf true x0 = [] := by simp [prefixOf]
  rw [hpre, List.nil_append] at e
  obtain ⟨lb, hl, hlb⟩ := hx.last
  have hlby : lb ≠ 'y' ∧ lb ≠ '\'' := by
    rcases hlb with h | h
    · exact vowel_ne_y' h
    · exact consonant_ne_y h
  have hsc : score r0.1 = weight (x0 ++ suf) - 10 * (shapeScore x0 : Int) := by rw [score_weight, hstrip, e]
  rw [hsc, hstrip, e] at h
  have hother : suf = [] → tarmiIgnoringHyphen r1.1 ≠ .other := by
    rintro rfl ht
    obtain ⟨last, _, _, _, h1', _, _, _, _, _, h7, _⟩ := combine_some h
    rw [List.append_nil, hl] at h1'
    cases h1'
    rcases h7 ht with h | h
    · exact hlby.1 h
    · exact hlby.2 h
  obtain ⟨hy, suf', hg, hj, hx1, hlj, hk', hix, hscore, hlj', hp, -, first, hok⟩ :=
    joint_step (Q := fun _ => True) h hl hlb hk.suf.1 h1 (fun last first hy ha _ _ _ hc => ⟨first_hyOk hx hk hl ha hc, trivial⟩)
  have hset : Settled c.lujvo := by
    rw [hlj']; exact first_settled hx hk h1 hok hother
  have hlay : Layout o.allowMz (x0 ++ (suf ++ hy ++ prefixOf false x1) ++ x1) [x0, x1] c.indices := by
    rw [hix]
    exact .snoc (.one hx) hg hj hx1
  have hsuf' : suf' = [] ∨ suf' = s%"y" ∨ suf' = s%"'y" := by
    rcases hk'.suf with ⟨h | h | h | h, hq⟩
    · exact .inl h
    · exact .inr (.inl h)
    · exact .inr (.inr h)
    · exact absurd h (hq rfl)
  refine ⟨⟨_, suf', hlj, hlay, hsuf'⟩, hset, tiebreak c.lujvo, ?_, ?_⟩
  · rw [tiebreak_tie]
    have htake : c.lujvo.take (x0 ++ (suf ++ hy ++ prefixOf false x1) ++ x1).length =
        x0 ++ (suf ++ hy ++ prefixOf false x1) ++ x1 := by
      rw [hlj, List.take_left']; rfl
    have hiff : TieShape c.lujvo ↔ TieAt c.lujvo c.indices := by
      constructor
      · intro ht
        have hs0 : suf' = [] := by
          have hny := tieShape_letters ht
          rcases hsuf' with h | h | h
          · exact h
          · rw [hlj, h] at hny; simp at hny
          · rw [hlj, h] at hny; simp at hny
        refine ⟨_, _, [], hix, ?_, ?_⟩
        · dsimp only
          rw [List.take_of_length_le]
          · exact ht
          · rw [hlj, hs0]; simp; omega
        · dsimp only
          rw [hlj, hs0]; simp; omega
      · rintro ⟨p, q, rest, e, ht, hq⟩
        rw [hix] at e
        simp only [List.cons_append, List.nil_append, List.cons.injEq] at e
        obtain ⟨-, rfl, rfl⟩ := e
        dsimp only at hq ht
        rw [← hq, List.take_length] at ht
        exact ht
    by_cases ht : TieShape c.lujvo
    · rw [if_pos ht]; exact .inl ⟨rfl, hiff.1 ht⟩
    · rw [if_neg ht]; exact .inr ⟨rfl, fun h => ht (hiff.2 h)⟩
  · rw [hscore]
    have : weight c.lujvo = weight (x0 ++ suf) + weight hy + weight r1.1 := by
      rw [hlj', weight_append, weight_append]
    rw [this]
    simp [sumShapes]
    omega

theorem Laid.more {s : Settings} {o : CombineOpts} {r : RafsiOpt} {c c' : Cand} {xs : List Str} {x : Str} {l : Bool}
    (hc : Laid o.allowMz xs c) (hlen : 2 ≤ xs.length)
    (h : combine { o with tanruLen := 0 } c.lujvo r.1 c.consonants r.2 c.score c.indices c.tos = .ok (some c'))
    (hr : Form s false l x r) : Laid o.allowMz (xs ++ [x]) c' := by
  obtain ⟨⟨body, suf, e, hlay, hs⟩, hset, tie, htie, hsc⟩ := hc
  obtain ⟨lb, hl, hlb⟩ := hlay.last
  have hs' : suf = [] ∨ suf = s%"y" ∨ suf = s%"'y" ∨ suf = s%"'" := by
    rcases hs with h | h | h
    · exact .inl h
    · exact .inr (.inl h)
    · exact .inr (.inr (.inl h))
  have hnq : suf ≠ s%"'" := by rintro rfl; simp at hs
  rw [e] at h
  obtain ⟨hy, suf', hg, hj, hx1, hlj, hk', hix, hscore, hlj', hp, hy0, -⟩ :=
    joint_step (Q := (· = [])) h hl hlb hs' hr (fun last first hy ha _ _ _ hc => by
      obtain ⟨hq, -, -⟩ := getLast_suf hl hlb hs' ha
      have hy0 : hy = [] := by rw [← e] at hc; exact hset.hyphen (fun h => hnq (hq.1 h)) hc
      exact ⟨.inr (.inl ⟨hnq, hy0⟩), hy0⟩)
  subst hy0
  have hsuf' : suf' = [] ∨ suf' = s%"y" ∨ suf' = s%"'y" := by
    rcases hk'.suf with ⟨h | h | h | h, hq⟩
    · exact .inl h
    · exact .inr (.inl h)
    · exact .inr (.inr h)
    · exact absurd h (hq rfl)
  have hlj2 : c'.lujvo = c.lujvo ++ r.1 := by rw [hlj', e]; simp
  have ht0 : tiebreak c'.lujvo = 0 := by
    rw [hlj2]
    refine hset.tie ?_
    exact hr.length
  refine ⟨⟨_, suf', hlj, ?_, hsuf'⟩, ?_, tie, ?_, ?_⟩
  · rw [hix]; exact .snoc hlay hg hj hx1
  · rw [hlj2]; exact hset.append
  · have hgap : suf ++ [] ++ prefixOf false x = [] ↔ suf = [] := by
      constructor
      · intro h; simp at h; exact h.1
      · intro h
        rw [h, hp h]; rfl
    have hiff : TieAt c'.lujvo c'.indices ↔ TieAt c.lujvo c.indices := by
      obtain ⟨hil, p, hp1, hp2⟩ := hlay.length
      have h2 : 2 ≤ c.indices.length := by omega
      match hci : c.indices, h2 with
      | a :: b :: rest, _ =>
        have hble : b.2 ≤ c.lujvo.length := by
          have := (hlay.bounds b (by rw [hci]; simp)).2
          rw [e]; simp; omega
        have htake : c'.lujvo.take b.2 = c.lujvo.take b.2 := by
          rw [hlj2, List.take_append_of_le_length hble]
        rw [hix, hci]
        have hun : ∀ w (r : List (Nat × Nat)), TieAt w (a :: b :: r) ↔
            TieShape (w.take b.2) ∧ (match r with | [] => w.length | t :: _ => t.1) = b.2 := by
          intro w r
          constructor
          · rintro ⟨p, q, r', e, h⟩
            simp only [List.cons.injEq] at e
            obtain ⟨-, rfl, rfl⟩ := e
            exact h
          · intro h; exact ⟨a, b, r, rfl, h⟩
        simp only [List.cons_append]
        rw [hun, hun, htake]
        cases hr' : rest with
        | cons t rest => simp
        | nil =>
          have hb2 : b.2 = body.length := by
            rw [hci, hr'] at hp1
            simp at hp1
            rw [hp1]; exact hp2
          simp only [List.nil_append]
          rw [hb2, e]
          have : body.length + (suf ++ [] ++ prefixOf false x).length = body.length ↔ (body ++ suf).length = body.length := by
            have h1 : (suf ++ [] ++ prefixOf false x).length = 0 ↔ suf.length = 0 := by
              rw [List.length_eq_zero_iff, List.length_eq_zero_iff]; exact hgap
            rw [List.length_append (as := body)]
            omega
          rw [this]
    rw [hiff]
    exact htie
  · rw [hscore, ht0, hsc]
    have : weight c'.lujvo = weight c.lujvo + weight [] + weight r.1 := by
      rw [hlj2, weight_append, show weight [] = 0 from rfl]; omega
    rw [this]
    simp [sumShapes]
    omega

theorem chosen_concat {s : Settings} {N : Nat} : ∀ {os : List RafsiOpt} {i : Nat} {vs xs : List Str} {o : RafsiOpt},
    Chosen s N i vs xs (os ++ [o]) → ∃ vs' v xs' x, vs = vs' ++ [v] ∧ xs = xs' ++ [x] ∧ Chosen s N i vs' xs' os ∧
      Form s (i + os.length == 0) (i + os.length + 1 == N) x o ∧ RafsiOf RAFSI_LIST s.allowMz v x := by
  intro os
  induction os with
  | nil =>
    intro i vs xs o h
    cases h with
    | cons hf hr h =>
      cases h
      exact ⟨[], _, [], _, rfl, rfl, .nil, hf, hr⟩
  | cons o' os ih =>
    intro i vs xs o h
    cases h with
    | cons hf hr h =>
      obtain ⟨vs', v, xs', x, rfl, rfl, hc, hf', hr'⟩ := ih h
      refine ⟨_ :: vs', v, _ :: xs', x, rfl, rfl, .cons hf hr hc, ?_, hr'⟩
      simpa [Nat.add_assoc, Nat.add_comm, Nat.add_left_comm] using hf'

theorem chosen_length {s : Settings} {N : Nat} {i : Nat} {vs xs : List Str} {os : List RafsiOpt} (h : Chosen s N i vs xs os) :
    vs.length = os.length ∧ xs.length = os.length := by
  induction h with
  | nil => exact ⟨rfl, rfl⟩
  | cons _ _ _ ih => simp [ih]

theorem chosen_all2 {s : Settings} {N : Nat} {i : Nat} {vs xs : List Str} {os : List RafsiOpt} (h : Chosen s N i vs xs os) :
    All2 (RafsiOf RAFSI_LIST s.allowMz) vs xs := by
  induction h with
  | nil => exact .nil
  | cons _ h _ ih => exact .cons h ih

theorem Built.count {o : CombineOpts} {M : Nat} {rs : List RafsiOpt} {c : Cand} (h : Built o M rs c) : 2 ≤ rs.length := by
  induction h with
  | two _ => simp
  | more _ _ ih => simp; omega

theorem Built.laid {s : Settings} {o : CombineOpts} {M N : Nat} {rs : List RafsiOpt} {c : Cand} (h : Built o M rs c) :
    ∀ {vs xs : List Str}, Chosen s N 0 vs xs rs → rs.length ≤ N → Laid o.allowMz xs c := by
  induction h with
  | @two r0 r1 c h =>
    intro vs xs hc hN
    cases hc with
    | cons hf _ hc =>
      cases hc with
      | cons hf1 _ hc =>
        cases hc
        have hN1 : (0 + 1 == N) = false := by simp at hN ⊢; omega
        rw [hN1] at hf
        exact Laid.two h hf hf1
  | @more rs r c c' hb h ih =>
    intro vs xs hc hN
    obtain ⟨vs', v, xs', x, rfl, rfl, hc, hf, -⟩ := chosen_concat hc
    have h2 := hb.count
    have hl := (chosen_length hc).2
    have h0 : (0 + rs.length == 0) = false := by simp; rintro rfl; simp at h2
    rw [h0] at hf
    exact Laid.more (ih hc (by simp at hN; omega)) (by omega) h hf

theorem slice_append_left {w t : Str} {a b : Nat} (h : b ≤ w.length) : slice (w ++ t) a b = slice w a b := by
  unfold slice
  rw [List.take_append_of_le_length h]

theorem Layout.slices {mz : Bool} {w : Str} {xs : List Str} {ix : List (Nat × Nat)} (h : Layout mz w xs ix) :
    ix.map (fun p => slice w p.1 p.2) = xs := by
  induction h with
  | one _ => simp [slice]
  | @snoc w xs ix g x hl _ _ _ ih =>
    rw [List.map_append]
    congr 1
    · rw [← ih]
      apply List.map_congr_left
      intro p hp
      rw [List.append_assoc]
      exact slice_append_left (hl.bounds p hp).2
    · have : (w ++ g ++ x).take (w.length + g.length + x.length) = w ++ g ++ x :=
        List.take_of_length_le (by simp; omega)
      simp only [List.map_cons, List.map_nil, slice, this]
      have e : w.length + g.length = (w ++ g).length := by simp
      rw [e, List.drop_left]

theorem Layout.starts {mz : Bool} {w : Str} {xs : List Str} {ix : List (Nat × Nat)} (h : Layout mz w xs ix) :
    ∃ p, ix.head? = some p ∧ p.1 = 0 := by
  induction h with
  | one _ => exact ⟨_, rfl, rfl⟩
  | snoc _ _ _ _ ih =>
    obtain ⟨p, h1, h2⟩ := ih
    refine ⟨p, ?_, h2⟩
    rw [List.head?_append, h1]; rfl

/-- Two consecutive places. -/
theorem Layout.between {mz : Bool} {w : Str} {xs : List Str} {ix : List (Nat × Nat)} (h : Layout mz w xs ix) :
    ∀ {u p q v}, ix = u ++ p :: q :: v → p.2 ≤ q.1 ∧ Gap (slice w p.2 q.1) ∧
      ∃ w' x t, w = w' ++ slice w p.2 q.1 ++ x ++ t ∧ JointOk mz w' (slice w p.2 q.1) x ∧ Clean x ∧ w'.length = p.2 ∧ x.length = q.2 - q.1 := by
  induction h with
  | one _ =>
    intro u p q v e
    have := congrArg List.length e
    simp at this
    omega
  | @snoc w xs ix g x hl hg hj hx ih =>
    intro u p q v e
    cases hv : v.getLast? with
    | none =>
      rw [List.getLast?_eq_none_iff] at hv
      subst hv
      have e' : ix ++ [(w.length + g.length, w.length + g.length + x.length)] = (u ++ [p]) ++ [q] := by rw [e]; simp
      obtain ⟨e1, e2⟩ := List.append_inj' e' rfl
      simp at e2
      subst e2
      obtain ⟨-, p', hp', hp2⟩ := hl.length
      rw [e1] at hp'
      simp at hp'
      subst hp'
      dsimp only
      have hsl : slice (w ++ g ++ x) p.2 (w.length + g.length) = g := by
        unfold slice
        rw [show w.length + g.length = (w ++ g).length by simp, List.take_left, hp2, List.drop_left]
      rw [hsl]
      exact ⟨by omega, hg, w, x, [], by simp, hj, hx, hp2.symm, by omega⟩
    | some z =>
      obtain ⟨v', rfl⟩ := List.getLast?_eq_some_iff.1 hv
      have e' : ix ++ [(w.length + g.length, w.length + g.length + x.length)] = (u ++ p :: q :: v') ++ [z] := by rw [e]; simp
      obtain ⟨e1, -⟩ := List.append_inj' e' rfl
      obtain ⟨h1, h2, w', y, t, e3, h3, h4, h5, h6⟩ := ih e1
      have hq : q.1 ≤ w.length := by
        have := hl.bounds q (by rw [e1]; simp)
        omega
      have hsl : slice (w ++ g ++ x) p.2 q.1 = slice w p.2 q.1 := by
        rw [List.append_assoc]; exact slice_append_left hq
      rw [hsl]
      exact ⟨h1, h2, w', y, t ++ g ++ x, by simp [← List.append_assoc, ← e3], h3, h4, h5, h6⟩

/-- What `get_lujvo_with_analytics` returns. -/
theorem getLujvoFromList_layout {b : Build} {s : Settings} {g : Bool} {vs : List Str} {r : Str × Int × List (Nat × Nat)}
    (h : getLujvoFromList (program b) s g vs = .ok r) :
    ∃ xs, All2 (RafsiOf RAFSI_LIST s.allowMz) vs xs ∧ Layout s.allowMz r.1 xs r.2.2 ∧
      ∃ tie : Int, (tie = 1 ∧ TieAt r.1 r.2.2 ∨ tie = 0 ∧ ¬ TieAt r.1 r.2.2) ∧
        r.2.1 = weight r.1 - 10 * (sumShapes xs : Int) - tie := by
  obtain ⟨ll, rs, c, l, hll, hp, hb, -, -, hl, hlv, rfl, -⟩ := getLujvoFromList_ok h
  obtain ⟨hlen, xs, hc⟩ := rafsiListListFrom_chosen hll hp
  have := (chosen_length hc).1
  have hlaid := hb.laid hc (by omega)
  obtain ⟨⟨body, suf, e, hlay, hs⟩, -, tie, htie, hsc⟩ := hlaid
  refine ⟨xs, chosen_all2 hc, ?_, tie, htie, hsc⟩
  dsimp only
  have hly : l ≠ 'y' := by
    rcases hlv with ⟨h, -⟩ | ⟨h, -⟩ <;> rintro rfl <;> exact absurd h (by decide)
  have : suf = [] := by
    rcases hs with h | h | h
    · exact h
    · rw [e, h] at hl; simp at hl; exact absurd hl.symm hly
    · rw [e, h] at hl; simp at hl; exact absurd hl.symm hly
  rw [e, this, List.append_nil]
  exact hlay

end Jvotci
