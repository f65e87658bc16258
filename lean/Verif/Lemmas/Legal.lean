import Verif.Lemmas.Slots

/-!
# Helper lemmas: what the search builds is what `Legal` allows

`Built` follows the calls of `combine`; `Legal`, `wordOf` and `cost` describe a finished candidate as a whole.
-/

namespace Jvotci

open Spec

theorem snoc_induction {α : Type} {P : List α → Prop} (nil : P []) (snoc : ∀ l a, P l → P (l ++ [a])) (l : List α) : P l := by
  rw [← List.reverse_reverse l]
  induction l.reverse with
  | nil => exact nil
  | cons a l ih => rw [List.reverse_cons]; exact snoc _ _ ih

/-! ## One joint -/

theorem form_head {s : Settings} {f l : Bool} {x : Str} {o : RafsiOpt} (h : Form s f l x o) : ∃ c, o.1.head? = some c := by
  obtain ⟨hx, suf, -, e⟩ := h
  have := hx.ne
  rw [e]
  cases hp : prefixOf f x ++ x ++ suf with
  | nil => simp at hp; exact absurd hp.2.1 this
  | cons c t => exact ⟨c, rfl⟩

theorem form_last {s : Settings} {f l : Bool} {x : Str} {o : RafsiOpt} (h : Form s f l x o) : ∃ c, o.1.getLast? = some c := by
  obtain ⟨c, hc⟩ := form_head h
  cases hl : o.1.getLast? with
  | none => rw [List.getLast?_eq_none_iff.1 hl] at hc; cases hc
  | some d => exact ⟨d, rfl⟩

theorem form_tarmi {s : Settings} {f l : Bool} {z : Slot} (h : Form s f l z.rafsi (opt s z)) :
    tarmiIgnoringHyphen z.text = rafsiTarmi z.rafsi := by
  unfold tarmiIgnoringHyphen
  rw [show z.text = (opt s z).1 from rfl, h.strip]

theorem form_shape {s : Settings} {f l : Bool} {z : Slot} (h : Form s f l z.rafsi (opt s z)) :
    shapeScore z.rafsi = 0 ↔ rafsiTarmi z.rafsi = .other := by
  rw [shapeScore_other]
  obtain ⟨-, suf, hk, -⟩ := h
  have := hk.not_hyphen
  simp [this]

theorem joint_iff {s : Settings} {f l mz : Bool} {p z : Slot} {last first : Char} (h : Form s f l z.rafsi (opt s z))
    (h1 : p.text.getLast? = some last) (h2 : z.text.head? = some first) :
    Joint mz p z ↔
      (isConsonant last = true → isConsonant first = true → (validPairs mz).contains [last, first] = true) ∧
      (first = '\'' → last = 'y' ∨ last = '\'') ∧
      BANNED_TRIPLES.contains (last :: slice z.text 0 2) = false ∧
      (tarmiIgnoringHyphen z.text = .other → last = 'y' ∨ last = '\'') := by
  rw [form_tarmi h]
  constructor
  · rintro ⟨j1, j2, j3⟩
    rw [h1, h2] at j3
    refine ⟨fun ha hb => ?_, fun hq => ?_, ?_, fun ho => ?_⟩
    · exact validPairs_contains.2 (j1 _ _ h1 h2 ((isConsonant_iff _).1 ha) ((isConsonant_iff _).1 hb))
    · simpa using j3 (.inl (by rw [hq]))
    · rw [banned_table, ← Bool.not_eq_true, List.contains_iff_mem]
      simpa [slice] using j2 _ h1
    · simpa using j3 (.inr ((form_shape h).2 ho))
  · rintro ⟨j1, j2, j3, j4⟩
    refine ⟨?_, ?_, ?_⟩
    · intro a b ha hb hca hcb
      rw [h1] at ha; rw [h2] at hb
      cases ha; cases hb
      exact validPairs_contains.1 (j1 ((isConsonant_iff _).2 hca) ((isConsonant_iff _).2 hcb))
    · intro a ha
      rw [h1] at ha; cases ha
      rw [banned_table, ← Bool.not_eq_true, List.contains_iff_mem] at j3
      simpa [slice] using j3
    · rw [h1, h2]
      rintro (h' | h')
      · simpa using j2 (by simpa using h')
      · simpa using j4 ((form_shape h).1 h')

/-! ## The tosmabru state -/

/-- The new state after `z` is put behind `p`. -/
def tosStep (t : Tos) (p z : Slot) : Option Tos :=
  match p.text.getLast?, z.text.head? with
  | some a, some b => nextTos t z.text a b (rafsiTarmi z.rafsi)
  | _, _ => none

/-- The state after all of `zs` are put behind `p`. -/
def tosFrom (t : Tos) (p : Slot) : List Slot → Option Tos
  | [] => some t
  | z :: zs => (tosStep t p z).bind (fun t => tosFrom t z zs)

theorem tosFrom_snoc {x z : Slot} : ∀ {zs : List Slot} {t : Tos} {p : Slot},
    tosFrom t p (zs ++ [x] ++ [z]) = (tosFrom t p (zs ++ [x])).bind (fun t => tosStep t x z)
  | [], t, p => by simp [tosFrom]
  | q :: zs, t, p => by
    simp only [List.cons_append, tosFrom, Option.bind_assoc]
    congr 1
    funext t
    exact tosFrom_snoc

/-! ## Consonants -/

/-- What the search records when a candidate has `k` consonants. -/
def cap (s : Settings) (k : Nat) : Nat := if s.consonants = .oneConsonant ∧ min 2 k > 0 then 2 else min 2 k

theorem cap_le (s : Settings) (k : Nat) : cap s k ≤ 2 := by unfold cap; split <;> omega

theorem cap_add (s : Settings) (k n : Nat) : cap s (cap s k + n) = cap s (k + n) := by
  unfold cap
  by_cases h : s.consonants = .oneConsonant
  · simp only [h, true_and]
    split <;> split <;> split <;> omega
  · simp only [h, false_and, if_false]
    omega

theorem total_cap {s : Settings} {g : Bool} {M lc n : Nat} :
    totalConsonants { combineOpts s g with tanruLen := M } lc n = cap s (lc + n) := rfl

theorem count_cluster {s : Settings} {z : Slot} (h : s.consonants = .cluster) : z.count s = 0 ∨ z.count s = 2 := by
  unfold Slot.count
  cases z.kind <;> simp [h]

theorem form_drop {s : Settings} {f l : Bool} {x : Str} {o : RafsiOpt} (h : Form s f l x o) :
    ∃ r rs, o.1.dropWhile (· == '\'') = r :: rs := by
  obtain ⟨hx, suf, -, e⟩ := h
  obtain ⟨c, hc, hcl⟩ := hx.first
  cases x with
  | nil => cases hc
  | cons a x =>
    simp at hc; subst hc
    have hq : a ≠ '\'' := by
      rcases hcl with h | h
      · exact (vowel_ne_y' h).2
      · exact (consonant_ne_y h).2
    rw [e]
    rcases prefixOf_cases f (a :: x) with hp | hp <;> rw [hp] <;> simp [hq]

theorem newConsonants_slot {s : Settings} {g f l : Bool} {M lc : Nat} {lujvo hy : Str} {z : Slot} {d : Char} {t : Str}
    (hz : Form s f l z.rafsi (opt s z)) (hlc : lc ≤ 2)
    (hd : lujvo.reverse.dropWhile isHyphenLetter = d :: t)
    (hdc : s.consonants = .cluster → lc ≠ 2 → isConsonant d = false) :
    ∃ new, newConsonants { combineOpts s g with tanruLen := M } lujvo z.text hy (z.count s) = .ok new ∧
      cap s (lc + new) = cap s (lc + (z.count s + if hy = s%"r" ∨ hy = s%"n" then 2 else 0)) := by
  have key2 : ∀ k, 2 ≤ k → cap s k = 2 := by
    intro k hk
    unfold cap
    have : min 2 k = 2 := by omega
    rw [this]; simp
  unfold newConsonants
  by_cases hh : hy = s%"r" ∨ hy = s%"n"
  · rw [if_pos (by rcases hh with h | h <;> simp [h]), if_pos hh]
    exact ⟨2, rfl, by rw [key2 _ (by omega), key2 _ (by omega)]⟩
  · rw [if_neg (by rintro (h | h) <;> simp [h] at hh), if_neg hh]
    by_cases hco : s.consonants = .cluster
    · rw [if_pos (by exact hco)]
      by_cases h2 : z.count s ≠ 2
      · rw [if_pos h2]
        obtain ⟨r, rs, hr⟩ := form_drop hz
        have hr : z.text.dropWhile (· == '\'') = r :: rs := hr
        rw [hd, hr]
        dsimp only
        have h0 : z.count s = 0 := by
          rcases count_cluster (z := z) hco with h | h
          · exact h
          · exact absurd h h2
        rw [h0]
        by_cases hl2 : lc = 2
        · subst hl2
          split
          · exact ⟨2, rfl, by rw [key2 _ (by omega), key2 _ (by omega)]⟩
          · exact ⟨0, rfl, rfl⟩
        · rw [hdc hco hl2]
          simp
      · rw [if_neg h2]; exact ⟨_, rfl, rfl⟩
    · rw [if_neg (by exact hco)]; exact ⟨_, rfl, rfl⟩

/-- One call of `combine`. -/
theorem combine_slot {s : Settings} {g f l : Bool} {M lc : Nat} {lujvo : Str} {p z : Slot} {sc : Int} {il : List (Nat × Nat)}
    {tos : Tos} {c : Cand} {last first d : Char} {t : Str}
    (hz : Form s f l z.rafsi (opt s z)) (hlc : lc ≤ 2) (h1 : lujvo.getLast? = some last) (h1' : p.text.getLast? = some last)
    (h2 : z.text.head? = some first) (hil : il ≠ [])
    (hd : lujvo.reverse.dropWhile isHyphenLetter = d :: t)
    (hdc : s.consonants = .cluster → lc ≠ 2 → isConsonant d = false) :
    combine { combineOpts s g with tanruLen := M } lujvo z.text lc (z.count s) sc il tos = .ok (some c) ↔
      Joint s.allowMz p z ∧ ∃ hy, chooseHyphen { combineOpts s g with tanruLen := M } lujvo last first (rafsiTarmi z.rafsi) = some hy ∧
        tosStep tos p z = some c.tos ∧
        c.consonants = cap s (lc + (z.count s + if hy = s%"r" ∨ hy = s%"n" then 2 else 0)) ∧
        c.score = sc + score hy + score z.text - tiebreak (lujvo ++ hy ++ z.text) ∧
        c.lujvo = lujvo ++ hy ++ z.text ∧
        c.indices = il ++ [(lujvo.length + hy.length + (if first = '\'' then 1 else 0),
          lujvo.length + hy.length + (if first = '\'' then 1 else 0) + (stripHyphens z.text).length)] := by
  have htos : ∀ t', tosStep tos p z = some t' ↔ nextTos tos z.text last first (tarmiIgnoringHyphen z.text) = some t' := by
    intro t'
    unfold tosStep
    rw [h1', h2, form_tarmi hz]
  rw [joint_iff hz h1' h2, ← form_tarmi hz]
  constructor
  · intro h
    obtain ⟨last', first', hy, new, e1, e2, -, e4, e5, e6, e7, e8, e9, e10, e11, e12, e13, e14⟩ := combine_some h
    rw [h1] at e1; cases e1
    rw [h2] at e2; cases e2
    obtain ⟨new', hn, hcap⟩ := newConsonants_slot (g := g) (M := M) (hy := hy) hz hlc hd hdc
    rw [e10] at hn; cases hn
    exact ⟨⟨e4, e5, e6, e7⟩, hy, e8, (htos _).2 e9, by rw [e11, ← hcap]; rfl, e12, e13, e14⟩
  · rintro ⟨⟨e4, e5, e6, e7⟩, hy, e8, e9, e11, e12, e13, e14⟩
    obtain ⟨new, hn, hcap⟩ := newConsonants_slot (g := g) (M := M) (hy := hy) hz hlc hd hdc
    rw [combine_intro (o := { combineOpts s g with tanruLen := M }) (lc := lc) (sc := sc) h1 h2 hil e4 e5 e6 e7 e8 ((htos _).1 e9) hn]
    rw [show totalConsonants { combineOpts s g with tanruLen := M } lc new = cap s (lc + new) from rfl, hcap, ← e11, ← e12, ← e13, ← e14]

/-! ## The first two slots -/

theorem ccv_hyphen {s : Settings} {x suf : Str} {n : Nat} (hx : Clean x) (hk : FormKind s true false x suf n) :
    ((x ++ suf).length = 5 ∧ rafsiTarmi (slice (x ++ suf) 0 3) = .ccv ∧ (x ++ suf).drop 3 = s%"'y") ↔
    (pattern x = s%"CCV" ∧ suf = s%"'y") := by
  rw [pattern_ccv]
  constructor
  · rintro ⟨h1, h2, h3⟩
    obtain ⟨d, hd, hdl⟩ := hx.last
    have hdne : d ≠ 'y' ∧ d ≠ '\'' := by
      rcases hdl with h | h
      · exact vowel_ne_y' h
      · exact consonant_ne_y h
    have e : x ++ suf = slice (x ++ suf) 0 3 ++ s%"'y" := by rw [← h3]; simp [slice]
    generalize slice (x ++ suf) 0 3 = u at *
    rcases hk.suf.1 with rfl | rfl | rfl | rfl
    · rw [List.append_nil] at e
      rw [e] at hd; simp at hd; exact absurd hd.symm hdne.1
    · have e' : x ++ ['y'] = (u ++ s%"'") ++ ['y'] := by rw [e]; simp
      have := (List.append_inj' e' rfl).1
      rw [this] at hd; simp at hd; exact absurd hd.symm hdne.2
    · have := (List.append_inj' e rfl).1
      subst this
      exact ⟨h2, rfl⟩
    · have e' : x ++ ['\''] = (u ++ s%"'") ++ ['y'] := by rw [e]; simp
      have := (List.append_inj' e' rfl).2
      simp at this
  · rintro ⟨h1, rfl⟩
    obtain ⟨a, b, c, rfl, -⟩ := tarmi_ccv.1 h1
    exact ⟨rfl, h1, rfl⟩

theorem first_text {s : Settings} {l : Bool} {y : Slot} (hy : Form s true l y.rafsi (opt s y)) :
    ∃ suf, FormKind s true l y.rafsi suf (y.count s) ∧ y.text = y.rafsi ++ suf := by
  obtain ⟨-, suf, hk, e⟩ := hy
  refine ⟨suf, hk, ?_⟩
  have : prefixOf true y.rafsi = [] := by unfold prefixOf; simp
  rw [this] at e
  exact e

theorem chooseHyphen_first {s : Settings} {g : Bool} {N : Nat} {y z : Slot} {last first : Char} {h : Str}
    (hy : Form s true false y.rafsi (opt s y)) (h1 : y.text.getLast? = some last) (h2 : z.text.head? = some first) :
    chooseHyphen { combineOpts s g with tanruLen := N } y.text last first (rafsiTarmi z.rafsi) = some h ↔
      FirstHyphen s g N y z h := by
  obtain ⟨suf, hk, e⟩ := first_text hy
  have hcc := ccv_hyphen hy.1 hk
  rw [← e] at hcc
  have hcc' : (pattern y.rafsi = s%"CCV" ∧ y.text = y.rafsi ++ s%"'y") ↔
      (y.text.length = 5 ∧ rafsiTarmi (slice y.text 0 3) = .ccv ∧ y.text.drop 3 = s%"'y") := by
    rw [hcc, e]
    simp
  have hcvv : pattern y.rafsi ∈ [s%"CVV", s%"CV'V"] ↔ (rafsiTarmi y.rafsi = .cvhv ∨ rafsiTarmi y.rafsi = .cvv) := by
    simp only [List.mem_cons, List.not_mem_nil, or_false, pattern_cvv, pattern_cvhv]
    exact or_comm
  unfold FirstHyphen
  rw [hcc', h1, h2]
  simp only [hcvv, pattern_ccv]
  unfold chooseHyphen
  rw [form_tarmi hy]
  have hlen : (rafsiTarmi y.rafsi = .cvhv ∨ rafsiTarmi y.rafsi = .cvv) → last ≠ '\'' → y.text.length ≤ 5 := by
    intro ht hl
    have hc := hk.cvv_cases (ht.symm)
    have hs : suf = [] := by
      rcases hc with h | ⟨h, -⟩ | ⟨-, h, -⟩
      · exact h
      · rw [e, h] at h1; simp at h1; exact absurd h1.symm hl
      · cases h
    rw [e, hs]
    rcases ht with ht | ht
    · obtain ⟨a, b, c, he, -⟩ := tarmi_cvhv.1 ht; rw [he]; simp
    · obtain ⟨a, b, c, he, -⟩ := tarmi_cvv.1 ht; rw [he]; simp
  generalize ho : ({ combineOpts s g with tanruLen := N } : CombineOpts) = o
  obtain ⟨e1, e2, e3⟩ : o.yHyphens = s.yHyphens ∧ o.generateCmevla = g ∧ o.tanruLen = N := by rw [← ho]; exact ⟨rfl, rfl, rfl⟩
  rw [e1, e2, e3]
  by_cases hl : last = '\''
  · rw [if_pos hl]
    subst hl
    by_cases hf : first = '\'' ∨ s.yHyphens ≠ .standard
    · rw [if_pos hf]; simp [hf]; grind
    · rw [if_neg hf]
      simp at hf
      simp [hf]
  · rw [if_neg hl]
    by_cases h5 : y.text.length = 5 ∧ rafsiTarmi (slice y.text 0 3) = .ccv ∧ y.text.drop 3 = s%"'y"
    · rw [if_pos h5]; simp [h5, hl]
    · rw [if_neg h5]
      simp only [Option.some.injEq, hl, false_and, false_or, ne_eq, not_false_eq_true, true_and, h5]
      by_cases ht : rafsiTarmi y.rafsi = .cvhv ∨ rafsiTarmi y.rafsi = .cvv
      · have hlen := hlen ht hl
        simp only [hlen, true_and, ht, if_true]
        cases g <;> simp <;> grind
      · simp only [ht, if_false, false_and]
        split
        · split <;> grind
        · grind

theorem cost_weight {zs : List Slot} {h : Str} : cost zs h =
    weight (wordOf zs h) - 10 * (((zs.map (fun z => shapeScore z.rafsi)).sum : Nat) : Int) - tiebreak (wordOf (zs.take 2) h) := by
  unfold cost
  rw [weight_count, tiebreak_tie]
  unfold countChar
  omega

/-- All the consonants counted. -/
def allCount (s : Settings) (zs : List Slot) (h : Str) : Nat :=
  (zs.map (Slot.count s)).sum + if h = s%"r" ∨ h = s%"n" then 2 else 0

/-- What the search knows about a candidate. -/
structure Shows (s : Settings) (zs : List Slot) (h : Str) (c : Cand) : Prop where
  lujvo : c.lujvo = wordOf zs h
  score : c.score = cost zs h
  consonants : c.consonants = cap s (allCount s zs h)

theorem beside_two {y z p q : Slot} : Beside [y, z] p q ↔ p = y ∧ q = z := by
  constructor
  · rintro ⟨u, v, e⟩
    have hl := congrArg List.length e
    cases u with
    | nil => simp at e; exact ⟨e.1.symm, e.2.1.symm⟩
    | cons a u => simp at hl; omega
  · rintro ⟨rfl, rfl⟩; exact ⟨[], [], rfl⟩

theorem beside_snoc {zs : List Slot} {x z p q : Slot} : Beside (zs ++ [x] ++ [z]) p q ↔ Beside (zs ++ [x]) p q ∨ (p = x ∧ q = z) := by
  constructor
  · rintro ⟨u, v, e⟩
    rcases List.eq_nil_or_concat v with rfl | ⟨v', w, rfl⟩
    · right
      have e1 : zs ++ [x] ++ [z] = (u ++ [p]) ++ [q] := by rw [e]; simp
      obtain ⟨e1, e2⟩ := List.append_inj' e1 rfl
      obtain ⟨-, e1⟩ := List.append_inj' e1 rfl
      simp at e1 e2
      exact ⟨e1.symm, e2.symm⟩
    · left
      have e1 : zs ++ [x] ++ [z] = (u ++ p :: q :: v') ++ [w] := by rw [e]; simp
      obtain ⟨e1, -⟩ := List.append_inj' e1 rfl
      exact ⟨u, v', e1⟩
  · rintro (⟨u, v, e⟩ | ⟨rfl, rfl⟩)
    · exact ⟨u, v ++ [z], by rw [e]; simp⟩
    · exact ⟨zs, [], by simp⟩

theorem built_two {s : Settings} {g l : Bool} {N : Nat} {y z : Slot} {c : Cand}
    (hy : Form s true false y.rafsi (opt s y)) (hz : Form s false l z.rafsi (opt s z)) :
    Built (combineOpts s g) N [opt s y, opt s z] c ↔
      Joint s.allowMz y z ∧ ∃ h, FirstHyphen s g N y z h ∧ tosStep (initialTos g y.text) y z = some c.tos ∧ Shows s [y, z] h c ∧
        c.indices = [(0, y.rafsi.length),
          (y.text.length + h.length + (if z.text.head? = some '\'' then 1 else 0),
          y.text.length + h.length + (if z.text.head? = some '\'' then 1 else 0) + z.rafsi.length)] := by
  obtain ⟨last, h1⟩ := form_last hy
  have h1 : y.text.getLast? = some last := h1
  obtain ⟨first, h2⟩ := form_head hz
  have h2 : z.text.head? = some first := h2
  obtain ⟨suf, hk, e⟩ := first_text hy
  obtain ⟨d, hd, hdl⟩ := hy.1.last
  obtain ⟨t, ht⟩ := dropWhile_tail (A := []) (isHyphen_all hk.suf.1) hd (hyphenLetter_false hdl)
  rw [List.nil_append, ← e] at ht
  have hcl : s.consonants = .cluster → y.count s ≠ 2 → isConsonant d = false := by
    intro _ hn
    obtain ⟨v, hv, hvv⟩ := hk.vowel hn
    rw [hd] at hv; cases hv
    exact not_consonant_of_vowel ((isVowel_iff _).2 hvv)
  have hle : y.count s ≤ 2 := by
    unfold Slot.count
    split
    · split <;> omega
    · split <;> omega
    · exact Nat.le_refl _
  have hstep := combine_slot (g := g) (M := N) (sc := score y.text) (il := [(0, (stripHyphens y.text).length)])
    (tos := initialTos g y.text) (c := c) hz hle h1 h1 h2 (by simp) ht hcl
  have hb : Built (combineOpts s g) N [opt s y, opt s z] c ↔
      combine { combineOpts s g with tanruLen := N } y.text z.text (y.count s) (z.count s) (score y.text)
        [(0, (stripHyphens y.text).length)] (initialTos g y.text) = .ok (some c) := by
    constructor
    · intro h
      generalize er : [opt s y, opt s z] = rs at h
      cases h with
      | two h => cases er; exact h
      | more hb h =>
        have := congrArg List.length er
        have := hb.count
        simp at *
        omega
    · intro h; exact .two h
  rw [hb, hstep]
  refine and_congr_right (fun _ => ?_)
  refine exists_congr (fun h => ?_)
  rw [chooseHyphen_first hy h1 h2]
  refine and_congr_right (fun hfirst => and_congr_right (fun _ => ?_))
  have hstripy : stripHyphens y.text = y.rafsi := hy.strip
  have hstripz : stripHyphens z.text = z.rafsi := hz.strip
  have hok := first_hyOk (o := { combineOpts s g with tanruLen := N }) hy.1 hk hd (by rw [← e]; exact h1)
    (by rw [← e]; exact (chooseHyphen_first hy h1 h2).2 hfirst)
  have hcost : score y.text + score h + score z.text - tiebreak (y.text ++ h ++ z.text) = cost [y, z] h := by
    rw [cost_weight, score_weight y.text, score_weight z.text, hok.score, hstripy, hstripz]
    simp [wordOf, weight_append]
    omega
  rw [hcost, hstripy, hstripz, h2]
  constructor
  · rintro ⟨a1, a2, a3, a4⟩
    refine ⟨⟨?_, a2, ?_⟩, ?_⟩
    · simp [wordOf, a3]
    · rw [a1]; unfold allCount; congr 1; simp; omega
    · rw [a4]; simp
  · rintro ⟨⟨a3, a2, a1⟩, a4⟩
    refine ⟨?_, a2, ?_, ?_⟩
    · rw [a1]; unfold allCount; congr 1; simp; omega
    · rw [a3]; simp [wordOf]
    · rw [a4]; simp

theorem wordOf_snoc {zs : List Slot} {z : Slot} {h : Str} (hne : zs ≠ []) : wordOf (zs ++ [z]) h = wordOf zs h ++ z.text := by
  cases zs with
  | nil => exact absurd rfl hne
  | cons a zs => simp [wordOf]

theorem cost_snoc {zs : List Slot} {z : Slot} {h : Str} (h2 : 2 ≤ zs.length) :
    cost (zs ++ [z]) h = cost zs h + weight z.text - 10 * (shapeScore z.rafsi : Int) := by
  have hne : zs ≠ [] := by rintro rfl; simp at h2
  rw [cost_weight, cost_weight, wordOf_snoc hne, weight_append, List.take_append_of_le_length h2]
  simp
  omega

theorem allCount_snoc {s : Settings} {zs : List Slot} {z : Slot} {h : Str} : allCount s (zs ++ [z]) h = allCount s zs h + z.count s := by
  unfold allCount
  simp
  omega

theorem slot_ne {s : Settings} {f l : Bool} {z : Slot} (hz : Form s f l z.rafsi (opt s z)) : z.text ≠ [] := by
  obtain ⟨c, hc⟩ := form_head hz
  have hc : z.text.head? = some c := hc
  intro e
  rw [e] at hc; cases hc

theorem built_snoc {s : Settings} {g l lx fx : Bool} {zs : List Slot} {x z : Slot} {c0 c : Cand} {h : Str}
    (hx : Form s fx lx x.rafsi (opt s x)) (hz : Form s false l z.rafsi (opt s z)) (h1 : zs ≠ [])
    (hr : Ready s.consonants c0) (hle : c0.consonants ≤ 2) (hsh : Shows s (zs ++ [x]) h c0) :
    combine { combineOpts s g with tanruLen := 0 } c0.lujvo z.text c0.consonants (z.count s) c0.score c0.indices c0.tos = .ok (some c) ↔
      Joint s.allowMz x z ∧ tosStep c0.tos x z = some c.tos ∧ Shows s (zs ++ [x] ++ [z]) h c ∧
      c.indices = c0.indices ++ [(c0.lujvo.length + (if z.text.head? = some '\'' then 1 else 0),
          c0.lujvo.length + (if z.text.head? = some '\'' then 1 else 0) + z.rafsi.length)] := by
  obtain ⟨last, hl⟩ := form_last hx
  have hl : x.text.getLast? = some last := hl
  obtain ⟨first, hf⟩ := form_head hz
  have hf : z.text.head? = some first := hf
  have hl0 : c0.lujvo.getLast? = some last := by
    rw [hsh.lujvo, wordOf_snoc h1, getLast?_append_ne _ (slot_ne hx), hl]
  have hq : last ≠ '\'' := by rintro rfl; exact hr.apos hl0
  obtain ⟨d, t, hd, hdc⟩ := hr.last
  rw [combine_slot (p := x) hz hle hl0 hl hf hr.indices hd hdc, hr.settled.chooses hq]
  have hlen : 2 ≤ z.text.length := hz.length
  refine and_congr_right (fun _ => ?_)
  have hstripz : stripHyphens z.text = z.rafsi := hz.strip
  have hzs : 2 ≤ (zs ++ [x]).length := by
    cases zs with
    | nil => exact absurd rfl h1
    | cons => simp
  have hcost : c0.score + score [] + score z.text - tiebreak (c0.lujvo ++ [] ++ z.text) = cost (zs ++ [x] ++ [z]) h := by
    rw [cost_snoc hzs, List.append_nil, hr.settled.tie hlen, score_weight z.text, hstripz, hsh.score,
      show score [] = 0 from by decide]
    omega
  have hcount : cap s (c0.consonants + (z.count s + if ([] : Str) = s%"r" ∨ ([] : Str) = s%"n" then 2 else 0)) =
      cap s (allCount s (zs ++ [x] ++ [z]) h) := by
    rw [allCount_snoc, hsh.consonants, cap_add]
    simp
  have hword : wordOf (zs ++ [x] ++ [z]) h = c0.lujvo ++ z.text := by
    rw [wordOf_snoc (by simp), hsh.lujvo]
  constructor
  · rintro ⟨hy, he, a0, a1, a2, a3, a4⟩
    obtain rfl : [] = hy := by simpa using he
    rw [hcost] at a2
    rw [hcount] at a1
    refine ⟨a0, ⟨?_, a2, a1⟩, ?_⟩
    · rw [a3, hword, List.append_nil]
    · rw [a4, hstripz, hf]; simp
  · rintro ⟨a0, ⟨a3, a2, a1⟩, a4⟩
    refine ⟨[], rfl, a0, ?_, ?_, ?_, ?_⟩
    · rw [a1, hcount]
    · rw [a2, hcost]
    · rw [a3, hword, List.append_nil]
    · rw [a4, hstripz, hf]; simp

/-- The state of the search after the slots `zs`. -/
def tosAll (g : Bool) : List Slot → Option Tos
  | [] => none
  | y :: zs => tosFrom (initialTos g y.text) y zs

theorem tosAll_snoc {g : Bool} {zs : List Slot} {x z : Slot} :
    tosAll g (zs ++ [x] ++ [z]) = (tosAll g (zs ++ [x])).bind (fun t => tosStep t x z) := by
  cases zs with
  | nil => simp [tosAll, tosFrom]
  | cons y zs =>
    simp only [List.cons_append, tosAll]
    exact tosFrom_snoc

/-- What is built is what is allowed. -/
theorem built_iff {s : Settings} {g : Bool} {N : Nat} {y z : Slot} : ∀ (rest : List Slot) {vs : List Str},
    Chosen s N 0 vs ((y :: z :: rest).map Slot.rafsi) ((y :: z :: rest).map (opt s)) → rest.length + 2 ≤ N →
    (∀ c, Built (combineOpts s g) N ((y :: z :: rest).map (opt s)) c →
      ∃ h, FirstHyphen s g N y z h ∧ (∀ p q, Beside (y :: z :: rest) p q → Joint s.allowMz p q) ∧
        tosAll g (y :: z :: rest) = some c.tos ∧ Shows s (y :: z :: rest) h c) ∧
    (∀ h t, FirstHyphen s g N y z h → (∀ p q, Beside (y :: z :: rest) p q → Joint s.allowMz p q) →
        tosAll g (y :: z :: rest) = some t →
        ∃ c, Built (combineOpts s g) N ((y :: z :: rest).map (opt s)) c ∧ c.tos = t ∧ Shows s (y :: z :: rest) h c) := by
  refine snoc_induction ?_ ?_
  · intro vs hc hN
    cases hc with
    | cons hf _ hc =>
      cases hc with
      | cons hf1 _ hc =>
        have hN1 : (0 + 1 == N) = false := by simp at hN ⊢; omega
        rw [hN1] at hf
        have key := fun c => built_two (g := g) (N := N) (c := c) hf hf1
        constructor
        · intro c hb
          obtain ⟨hj, h, h1, h2, h3, -⟩ := (key c).1 hb
          refine ⟨h, h1, ?_, ?_, h3⟩
          · intro p q hpq
            obtain ⟨rfl, rfl⟩ := beside_two.1 hpq
            exact hj
          · simpa [tosAll, tosFrom] using h2
        · intro h t h1 hj ht
          refine ⟨⟨t, _, _, _, _⟩, (key _).2 ⟨hj _ _ (beside_two.2 ⟨rfl, rfl⟩), h, h1, ?_, ⟨rfl, rfl, rfl⟩, rfl⟩, rfl, ⟨rfl, rfl, rfl⟩⟩
          simpa [tosAll, tosFrom] using ht
  · intro rest x ih vs hc hN
    have e : y :: z :: (rest ++ [x]) = (y :: z :: rest) ++ [x] := rfl
    rw [e] at hc ⊢
    obtain ⟨ws, w, ew⟩ : ∃ ws w, y :: z :: rest = ws ++ [w] :=
      ⟨(y :: z :: rest).dropLast, (y :: z :: rest).getLast (by simp), (List.dropLast_concat_getLast (by simp)).symm⟩
    have hws : ws ≠ [] := by
      rintro rfl
      have := congrArg List.length ew
      simp at this
    rw [List.map_append, List.map_append] at hc
    change Chosen s N 0 vs (_ ++ [x.rafsi]) (_ ++ [opt s x]) at hc
    obtain ⟨vs', v, xs', x', -, exs, hc', hfx, -⟩ := chosen_concat hc
    obtain ⟨exs', exx⟩ := List.append_inj' exs rfl
    simp at exx
    subst exx
    rw [← exs'] at hc'
    have hlen : (y :: z :: rest).length ≤ N := by simp at hN ⊢; omega
    have h0 : (0 + ((y :: z :: rest).map (opt s)).length == 0) = false := by simp
    rw [h0] at hfx
    have hfw : ∃ fx lx, Form s fx lx w.rafsi (opt s w) := by
      have hc2 := hc'
      rw [ew, List.map_append, List.map_append] at hc2
      change Chosen s N 0 vs' (_ ++ [w.rafsi]) (_ ++ [opt s w]) at hc2
      obtain ⟨_, _, _, x', -, exs, -, hfx, -⟩ := chosen_concat hc2
      have := (List.append_inj' exs rfl).2
      simp at this
      subst this
      exact ⟨_, _, hfx⟩
    obtain ⟨fx, lx, hfw⟩ := hfw
    obtain ⟨ih1, ih2⟩ := ih hc' (by simpa using hlen)
    have hcount : 2 ≤ ((y :: z :: rest).map (opt s)).length := by simp
    have hlen' : ((y :: z :: rest).map (opt s)).length ≤ N := by simpa using hlen
    rw [show ((y :: z :: rest) ++ [x]).map (opt s) = (y :: z :: rest).map (opt s) ++ [opt s x] from List.map_append]
    constructor
    · intro c hb
      obtain ⟨c0, hb0, hcomb⟩ := built_concat hb hcount
      obtain ⟨h, h1, h2, h3, h4⟩ := ih1 c0 hb0
      have hr := hb0.ready hc' hlen'
      rw [ew] at h2 h3 h4
      obtain ⟨k1, k2, k3, -⟩ := (built_snoc (g := g) hfw hfx hws hr hb0.le h4).1 hcomb
      rw [ew]
      refine ⟨h, h1, ?_, ?_, k3⟩
      · intro p q hpq
        rcases beside_snoc.1 hpq with hpq | ⟨rfl, rfl⟩
        · exact h2 _ _ hpq
        · exact k1
      · rw [tosAll_snoc, h3]; exact k2
    · intro h t h1 hj ht
      rw [ew, tosAll_snoc] at ht
      obtain ⟨t0, ht0, hts⟩ := Option.bind_eq_some_iff.1 ht
      rw [ew] at hj ih2
      obtain ⟨c0, hb0, rfl, h4⟩ := ih2 h t0 h1 (fun p q hpq => hj p q (beside_snoc.2 (.inl hpq))) ht0
      rw [← ew] at hb0
      have hr := hb0.ready hc' hlen'
      rw [ew]
      have hcomb := (built_snoc (g := g) (c := ⟨t, cap s (allCount s (ws ++ [w] ++ [x]) h), cost (ws ++ [w] ++ [x]) h, wordOf (ws ++ [w] ++ [x]) h,
        c0.indices ++ [(c0.lujvo.length + (if x.text.head? = some '\'' then 1 else 0),
          c0.lujvo.length + (if x.text.head? = some '\'' then 1 else 0) + x.rafsi.length)]⟩) hfw hfx hws hr hb0.le h4).2
        ⟨hj _ _ (beside_snoc.2 (.inr ⟨rfl, rfl⟩)), hts, ⟨rfl, rfl, rfl⟩, rfl⟩
      have hb := Built.more (r := opt s x) hb0 hcomb
      rw [ew] at hb
      exact ⟨_, hb, rfl, rfl, rfl, rfl⟩

/-! ## The tosmabru test -/

/-- A CVC rafsi without a hyphen. -/
def Bare (z : Slot) : Prop := pattern z.rafsi = s%"CVC" ∧ z.text = z.rafsi

/-- The texts a slot can have, as far as the tosmabru test is concerned. -/
structure TosOk (z : Slot) : Prop where
  ne : z.text ≠ []
  cvc : rafsiTarmi z.rafsi = .cvc → z.text = z.rafsi ∨ z.text = z.rafsi ++ s%"y"
  cvccv : rafsiTarmi z.rafsi = .cvccv → ∃ suf, z.text = z.rafsi ++ suf

theorem FormKind.cvc_cases {s : Settings} {f l : Bool} {x suf : Str} {n : Nat} (h : FormKind s f l x suf n)
    (ht : rafsiTarmi x = .cvc) : suf = [] ∨ suf = s%"y" := by
  have hnc : ¬ Clustered x := by
    rintro ⟨a, b, hab, ha, hb⟩
    obtain ⟨p, q, r, rfl, h1, h2, h3⟩ := tarmi_cvc.1 ht
    rw [isVowel_iff] at h2
    rcases adjacent_cons.1 hab with ⟨rfl, rfl⟩ | hab
    · exact vowel_not_consonant h2 hb
    · rcases adjacent_cons.1 hab with ⟨rfl, rfl⟩ | hab
      · exact vowel_not_consonant h2 ha
      · exact adjacent_single hab
  cases h with
  | cvv h _ => rw [ht] at h; simp at h
  | ccv h _ => rw [ht] at h; simp at h
  | cvc _ h => rcases h with h | ⟨h, -⟩ <;> simp [h]
  | short _ h => exact absurd h hnc
  | long _ h => exact absurd h hnc
  | exp h => rw [ht] at h; simp at h

theorem form_tosOk {s : Settings} {f l : Bool} {z : Slot} (h : Form s f l z.rafsi (opt s z)) : TosOk z := by
  have hne := slot_ne h
  obtain ⟨hx, suf, hk, e⟩ := h
  have e : z.text = prefixOf f z.rafsi ++ z.rafsi ++ suf := e
  have hpre : ∀ {a t}, z.rafsi = a :: t → isConsonant a = true → prefixOf f z.rafsi = [] := by
    intro a t hz ha
    unfold prefixOf
    rw [if_neg]
    rintro ⟨-, ⟨c, hc, hv⟩, -⟩
    rw [hz] at hc; simp at hc; subst hc
    rw [not_consonant_of_vowel hv] at ha; cases ha
  refine ⟨hne, fun ht => ?_, fun ht => ?_⟩
  · obtain ⟨a, b, c, hz, ha, -⟩ := tarmi_cvc.1 ht
    rw [e, hpre hz ha]
    rcases hk.cvc_cases ht with rfl | rfl <;> simp
  · obtain ⟨a, b, c, d, e', hz, ha, -⟩ := tarmi_cvccv.1 ht
    exact ⟨suf, by rw [e, hpre hz ha]; rfl⟩

theorem beside_cons {p q a b : Slot} {l : List Slot} : Beside (p :: q :: l) a b ↔ (a = p ∧ b = q) ∨ Beside (q :: l) a b := by
  constructor
  · rintro ⟨u, v, e⟩
    cases u with
    | nil => simp at e; exact .inl ⟨e.1.symm, e.2.1.symm⟩
    | cons x u => simp at e; exact .inr ⟨u, v, e.2⟩
  · rintro (⟨rfl, rfl⟩ | ⟨u, v, e⟩)
    · exact ⟨[], l, rfl⟩
    · exact ⟨p :: u, v, by simp [e]⟩

/-- The letters where two slots meet are an initial pair. -/
def PairUp (p q : Slot) : Prop := ∃ a b, p.text.getLast? = some a ∧ q.text.head? = some b ∧ InitialPair a b

/-- The slot that ends the tosmabru test. -/
def TosEnd (y : Slot) : Prop :=
  (pattern y.rafsi = s%"CVCCV" ∧ ∃ a b c d e, y.rafsi = [a, b, c, d, e] ∧ InitialPair c d) ∨
  (pattern y.rafsi = s%"CVC" ∧ y.text = y.rafsi ++ s%"y")

theorem tosmabru_nil : ¬ Tosmabru [] := by
  rintro ⟨u, y, rest, hu, e, -⟩
  simp at e

theorem tosmabru_single {p : Slot} : ¬ Tosmabru [p] := by
  rintro ⟨u, y, rest, hu, e, -⟩
  have := congrArg List.length e
  cases u with
  | nil => exact hu rfl
  | cons => simp at this

theorem tosmabru_bare {p : Slot} {zs : List Slot} (h : Tosmabru (p :: zs)) : Bare p := by
  obtain ⟨u, y, rest, hu, e, h1, -⟩ := h
  cases u with
  | nil => exact absurd rfl hu
  | cons a u => simp at e; exact e.1 ▸ h1 a (by simp)

theorem tosmabru_cons {p z : Slot} {zs : List Slot} (hp : Bare p) :
    Tosmabru (p :: z :: zs) ↔ PairUp p z ∧ (TosEnd z ∨ Tosmabru (z :: zs)) := by
  constructor
  · rintro ⟨u, y, rest, hu, e, h1, h2, h3⟩
    cases u with
    | nil => exact absurd rfl hu
    | cons a u =>
      simp at e
      obtain ⟨rfl, e⟩ := e
      cases u with
      | nil =>
        simp at e
        obtain ⟨rfl, rfl⟩ := e
        exact ⟨h2 _ _ (beside_two.2 ⟨rfl, rfl⟩), .inl h3⟩
      | cons b u =>
        simp at e
        obtain ⟨rfl, rfl⟩ := e
        refine ⟨h2 _ _ (beside_cons.2 (.inl ⟨rfl, rfl⟩)), .inr ⟨z :: u, y, rest, by simp, rfl, ?_, ?_, h3⟩⟩
        · exact fun w hw => h1 w (List.mem_cons_of_mem _ hw)
        · exact fun a b hab => h2 a b (beside_cons.2 (.inr hab))
  · rintro ⟨hpair, h | ⟨u, y, rest, hu, e, h1, h2, h3⟩⟩
    · refine ⟨[p], z, zs, by simp, rfl, ?_, ?_, h⟩
      · intro w hw; simp at hw; subst hw; exact hp
      · intro a b hab
        obtain ⟨rfl, rfl⟩ := beside_two.1 hab
        exact hpair
    · refine ⟨p :: u, y, rest, by simp, by rw [e]; rfl, ?_, ?_, h3⟩
      · intro w hw
        rcases List.mem_cons.1 hw with rfl | hw
        · exact hp
        · exact h1 w hw
      · intro a b hab
        cases u with
        | nil => exact absurd rfl hu
        | cons c u =>
          simp at e
          obtain ⟨rfl, -⟩ := e
          rcases beside_cons.1 hab with ⟨rfl, rfl⟩ | hab
          · exact hpair
          · exact h2 a b hab

theorem tosFrom_none {p : Slot} {zs : List Slot} (hp : p.text ≠ []) (h : ∀ z ∈ zs, z.text ≠ []) : tosFrom .tosynone p zs = some .tosynone := by
  induction zs generalizing p with
  | nil => rfl
  | cons z zs ih =>
    have hz := h z (by simp)
    have : tosStep .tosynone p z = some .tosynone := by
      unfold tosStep
      obtain ⟨a, ha⟩ : ∃ a, p.text.getLast? = some a := by
        cases hl : p.text.getLast? with
        | none => exact absurd (List.getLast?_eq_none_iff.1 hl) hp
        | some a => exact ⟨a, rfl⟩
      obtain ⟨b, hb⟩ : ∃ b, z.text.head? = some b := by
        cases hl : z.text with
        | nil => exact absurd hl hz
        | cons b t => exact ⟨b, rfl⟩
      rw [ha, hb]
      rfl
    unfold tosFrom
    rw [this]
    exact ih hz (fun w hw => h w (List.mem_cons_of_mem _ hw))

/-- One step of the tosmabru test. -/
theorem tosStep_mabru {p z : Slot} (hp : p.text ≠ []) (hz : TosOk z) :
    (¬ PairUp p z → tosStep .tosmabru p z = some .tosynone) ∧
    (PairUp p z → TosEnd z → tosStep .tosmabru p z = none) ∧
    (PairUp p z → Bare z → tosStep .tosmabru p z = some .tosmabru) ∧
    (PairUp p z → ¬ TosEnd z → ¬ Bare z → tosStep .tosmabru p z = some .tosynone) := by
  obtain ⟨a, ha⟩ : ∃ a, p.text.getLast? = some a := by
    cases hl : p.text.getLast? with
    | none => exact absurd (List.getLast?_eq_none_iff.1 hl) hp
    | some a => exact ⟨a, rfl⟩
  obtain ⟨b, hb⟩ : ∃ b, z.text.head? = some b := by
    cases hl : z.text with
    | nil => exact absurd hl hz.ne
    | cons b t => exact ⟨b, rfl⟩
  have hpair : PairUp p z ↔ INITIAL.contains [a, b] = true := by
    unfold PairUp
    rw [ha, hb, initial_contains]
    simp
  unfold tosStep
  rw [ha, hb]
  dsimp only [nextTos]
  rw [hpair]
  unfold TosEnd Bare
  rw [pattern_cvc, pattern_cvccv]
  by_cases hi : INITIAL.contains [a, b] = true
  · simp only [hi, Bool.not_true, Bool.false_eq_true, if_false, not_true_eq_false, false_implies, true_implies, true_and]
    by_cases h5 : rafsiTarmi z.rafsi = .cvccv
    · simp only [h5, if_true, true_and, reduceCtorEq, false_and, or_false, not_false_eq_true, true_implies, false_implies]
      obtain ⟨suf, e⟩ := hz.cvccv h5
      obtain ⟨a', b', c, d, e', hx, -⟩ := tarmi_cvccv.1 h5
      have hs : slice z.text 2 4 = [c, d] := by rw [e, hx]; rfl
      rw [hs, hx]
      have : (∃ a b c' d' e, [a', b', c, d, e'] = [a, b, c', d', e] ∧ InitialPair c' d') ↔ InitialPair c d := by
        constructor
        · rintro ⟨_, _, _, _, _, e, h⟩; cases e; exact h
        · intro h; exact ⟨_, _, _, _, _, rfl, h⟩
      rw [this, ← initial_contains]
      constructor
      · intro h; rw [if_pos h]
      · intro h; rw [if_neg h]
    · simp only [h5, if_false, false_and, false_or]
      by_cases h3 : rafsiTarmi z.rafsi = .cvc
      · simp only [h3, if_true, true_and]
        obtain ⟨a', b', c, hx, -, -, hc⟩ := tarmi_cvc.1 h3
        have hcy : c ≠ 'y' := (consonant_ne_y ((isConsonant_iff _).1 hc)).1
        rcases hz.cvc h3 with e | e
        · have hl : z.text.getLast? ≠ some 'y' := by rw [e, hx]; simpa using hcy
          rw [if_neg hl]
          simp [e]
        · have hl : z.text.getLast? = some 'y' := by rw [e]; simp
          rw [if_pos hl]
          simp [e]
      · simp [h3]
  · rw [(Bool.eq_false_iff).2 hi]
    simp

theorem bare_not_end {z : Slot} (h : Bare z) : ¬ TosEnd z := by
  rintro (⟨h1, -⟩ | ⟨-, h1⟩)
  · rw [h.1] at h1; exact absurd h1 (by decide)
  · rw [h.2] at h1; simp at h1

theorem tosFrom_mabru {p : Slot} {zs : List Slot} (hp : Bare p) (hne : p.text ≠ []) (h : ∀ z ∈ zs, TosOk z) :
    (tosFrom .tosmabru p zs = none ∧ Tosmabru (p :: zs)) ∨
    (tosFrom .tosmabru p zs = some .tosynone ∧ ¬ Tosmabru (p :: zs)) ∨
    (tosFrom .tosmabru p zs = some .tosmabru ∧ ¬ Tosmabru (p :: zs) ∧ ∃ q, (p :: zs).getLast? = some q ∧ Bare q) := by
  induction zs generalizing p with
  | nil => exact .inr (.inr ⟨rfl, tosmabru_single, p, rfl, hp⟩)
  | cons z zs ih =>
    have hz := h z (by simp)
    have hzs : ∀ w ∈ zs, TosOk w := fun w hw => h w (List.mem_cons_of_mem _ hw)
    obtain ⟨s1, s2, s3, s4⟩ := tosStep_mabru hne hz
    rw [tosmabru_cons hp]
    unfold tosFrom
    have hnone := tosFrom_none hz.ne (fun w hw => (hzs w hw).ne)
    by_cases hpair : PairUp p z
    · by_cases he : TosEnd z
      · rw [s2 hpair he]; left; exact ⟨rfl, hpair, .inl he⟩
      · by_cases hb : Bare z
        · rw [s3 hpair hb]
          rcases ih hb hz.ne hzs with ⟨h1, h2⟩ | ⟨h1, h2⟩ | ⟨h1, h2, h3⟩
          · left; exact ⟨h1, hpair, .inr h2⟩
          · right; left; exact ⟨h1, by simp [he, h2]⟩
          · right; right; exact ⟨h1, by simp [he, h2], by simpa using h3⟩
        · rw [s4 hpair he hb]
          right; left
          refine ⟨hnone, ?_⟩
          rintro ⟨-, h' | h'⟩
          · exact he h'
          · exact hb (tosmabru_bare h')
    · rw [s1 hpair]
      right; left
      exact ⟨hnone, fun h' => hpair h'.1⟩

theorem tosFrom_huhu {p : Slot} {zs : List Slot} (hne : p.text ≠ []) (h : ∀ z ∈ zs, z.text ≠ []) :
    (tosFrom .tosyhuhu p zs = some .tosyhuhu ∧ ∀ z ∈ zs, z.text.head? = some '\'' ∧ ∀ c ∈ z.text, ¬ Consonant c) ∨
    (tosFrom .tosyhuhu p zs = some .tosynone ∧ ¬ ∀ z ∈ zs, z.text.head? = some '\'' ∧ ∀ c ∈ z.text, ¬ Consonant c) := by
  induction zs generalizing p with
  | nil => left; exact ⟨rfl, by simp⟩
  | cons z zs ih =>
    have hz := h z (by simp)
    have hzs : ∀ w ∈ zs, w.text ≠ [] := fun w hw => h w (List.mem_cons_of_mem _ hw)
    obtain ⟨a, ha⟩ : ∃ a, p.text.getLast? = some a := by
      cases hl : p.text.getLast? with
      | none => exact absurd (List.getLast?_eq_none_iff.1 hl) hne
      | some a => exact ⟨a, rfl⟩
    obtain ⟨b, hb⟩ : ∃ b, z.text.head? = some b := by
      cases hl : z.text with
      | nil => exact absurd hl hz
      | cons b t => exact ⟨b, rfl⟩
    have hcc : containsConsonant z.text = true ↔ ∃ c ∈ z.text, Consonant c := by
      unfold containsConsonant
      simp only [List.any_eq_true, isConsonant_iff]
    unfold tosFrom tosStep
    rw [ha, hb]
    dsimp only [nextTos]
    by_cases hc : (decide (b ≠ '\'') || containsConsonant z.text) = true
    · rw [if_pos hc]
      right
      refine ⟨tosFrom_none hz hzs, ?_⟩
      intro hall
      obtain ⟨h1, h2⟩ := hall z (by simp)
      rw [hb] at h1
      simp only [Option.some.injEq] at h1
      simp only [h1, ne_eq, not_true_eq_false, decide_false, Bool.false_or] at hc
      obtain ⟨c, hcm, hcc⟩ := hcc.1 hc
      exact h2 c hcm hcc
    · rw [if_neg hc]
      simp only [Bool.or_eq_true, decide_eq_true_eq, not_or, ne_eq, Classical.not_not] at hc
      have hzt : z.text.head? = some '\'' ∧ ∀ c ∈ z.text, ¬ Consonant c := by
        refine ⟨by rw [hb, hc.1], fun c hcm hcon => hc.2 (hcc.2 ⟨c, hcm, hcon⟩)⟩
      rcases ih hz hzs with ⟨h1, h2⟩ | ⟨h1, h2⟩
      · left
        refine ⟨h1, ?_⟩
        intro w hw
        rcases List.mem_cons.1 hw with rfl | hw
        · exact hzt
        · exact h2 w hw
      · right
        exact ⟨h1, fun hall => h2 (fun w hw => hall w (List.mem_cons_of_mem _ hw))⟩

/-- The state the search ends in says whether the word passes the tosmabru test. -/
theorem tosAll_iff {g : Bool} {y : Slot} {rest : List Slot} (h : ∀ z ∈ y :: rest, TosOk z)
    (hy : tarmiIgnoringHyphen y.text = rafsiTarmi y.rafsi)
    (hend : g = false → ¬ ∃ q, (y :: rest).getLast? = some q ∧ Bare q) :
    tosAll g (y :: rest) = some .tosynone ↔ (g = false → ¬ Tosmabru (y :: rest)) ∧ (g = false → ¬ Tosyhuhu (y :: rest)) := by
  have hyok := h y (by simp)
  have hrest : ∀ z ∈ rest, TosOk z := fun z hz => h z (List.mem_cons_of_mem _ hz)
  dsimp only [tosAll]
  unfold initialTos
  rw [hy]
  cases g with
  | true => simp [tosFrom_none hyok.ne (fun z hz => (hrest z hz).ne)]
  | false =>
    simp only [Bool.false_eq_true, or_false, true_implies]
    by_cases hc : rafsiTarmi y.rafsi = .cvc
    · rw [if_neg (by simpa using hc)]
      obtain ⟨a', b', c, hx, -, -, hcc⟩ := tarmi_cvc.1 hc
      have hcy : c ≠ 'y' := (consonant_ne_y ((isConsonant_iff _).1 hcc)).1
      rcases hyok.cvc hc with e | e
      · rw [if_neg (by rw [e, hx]; simpa using hcy)]
        have hb : Bare y := ⟨pattern_cvc.2 hc, e⟩
        have hnh : ¬ Tosyhuhu (y :: rest) := by
          rintro ⟨y', r', e', -, e2, -⟩
          simp at e'
          rw [← e'.1, e] at e2
          simp at e2
        rcases tosFrom_mabru hb hyok.ne hrest with ⟨h1, h2⟩ | ⟨h1, h2⟩ | ⟨h1, h2, h3⟩
        · simp [h1, h2]
        · simp [h1, h2, hnh]
        · exact absurd h3 (hend rfl)
      · rw [if_pos (by rw [e]; simp)]
        have hnm : ¬ Tosmabru (y :: rest) := by
          intro hm
          have := (tosmabru_bare hm).2
          rw [e] at this; simp at this
        have hth : Tosyhuhu (y :: rest) ↔ ∀ z ∈ rest, z.text.head? = some '\'' ∧ ∀ c ∈ z.text, ¬ Consonant c := by
          constructor
          · rintro ⟨y', r', e', -, -, h⟩
            simp at e'
            rw [e'.2]; exact h
          · intro h; exact ⟨y, rest, rfl, pattern_cvc.2 hc, e, h⟩
        rw [hth]
        rcases tosFrom_huhu hyok.ne (fun z hz => (hrest z hz).ne) with ⟨h1, h2⟩ | ⟨h1, h2⟩
        · rw [h1]
          exact ⟨by simp, fun h => absurd h2 h.2⟩
        · rw [h1]
          exact ⟨fun _ => ⟨hnm, h2⟩, fun _ => rfl⟩
    · rw [if_pos (by simpa using hc), tosFrom_none hyok.ne (fun z hz => (hrest z hz).ne)]
      refine ⟨fun _ => ⟨?_, ?_⟩, fun _ => rfl⟩
      · intro hm; exact hc (pattern_cvc.1 (tosmabru_bare hm).1)
      · rintro ⟨y', r', e', h1, -⟩
        simp at e'
        rw [← e'.1] at h1
        exact hc (pattern_cvc.1 h1)

/-! ## All together -/

theorem rafsiListListFrom_length {R : Rec} {s : Settings} {N : Nat} : ∀ {vs : List Str} {i : Nat} {ll : List (List RafsiOpt)},
    rafsiListListFrom R s N i vs = .ok ll → ll.length = vs.length
  | [], i, ll, h => by cases h; rfl
  | v :: vs, i, ll, h => by
    unfold rafsiListListFrom at h
    obtain ⟨a, -, h⟩ := bind_ok h
    obtain ⟨l, hl, h⟩ := bind_ok h
    cases h
    simp [rafsiListListFrom_length hl]

theorem chosen_forms {s : Settings} {N : Nat} : ∀ {zs : List Slot} {i : Nat} {vs : List Str},
    Chosen s N i vs (zs.map Slot.rafsi) (zs.map (opt s)) → ∀ z ∈ zs, ∃ f l, Form s f l z.rafsi (opt s z)
  | [], _, _, _ => by simp
  | z :: zs, i, vs, h => by
    cases h with
    | cons hf _ h =>
      intro w hw
      rcases List.mem_cons.1 hw with rfl | hw
      · exact ⟨_, _, hf⟩
      · exact chosen_forms h w hw

theorem enough_iff {s : Settings} {zs : List Slot} {h : Str} : Enough s zs h ↔ cap s (allCount s zs h) = 2 := by
  unfold Enough cap allCount
  generalize (zs.map (Slot.count s)).sum = k
  by_cases hh : h = s%"r" ∨ h = s%"n"
  · have h1 : (h = s%"r" ∨ h = s%"n" ∨ (if s.consonants = .oneConsonant then 1 else 2) ≤ k) := by
      rcases hh with h | h <;> simp [h]
    simp only [h1, hh, if_true, true_iff]
    split <;> omega
  · have hr : h ≠ s%"r" := fun e => hh (.inl e)
    have hn : h ≠ s%"n" := fun e => hh (.inr e)
    simp only [hr, hn, false_or, if_false, or_self]
    by_cases h1 : s.consonants = .oneConsonant
    · simp only [h1, true_and, if_true]
      split <;> omega
    · simp only [h1, false_and, if_false]
      omega

theorem rightEnd_iff {g : Bool} {l : Char} : RightEnd g l ↔ if g then Consonant l else Vowel l := by
  unfold RightEnd
  cases g <;> simp [isVowel_iff, isConsonant_iff]

theorem represents_length {b : Build} {s : Settings} {N i : Nat} {vs : List Str} {zs : List Slot} (h : Represents b s N i vs zs) :
    zs.length = vs.length := by
  induction h with
  | nil => rfl
  | cons _ _ _ ih => simp [ih]

/-- The state at the end is that of a word that does not fall apart. -/
theorem tos_end {s : Settings} {g : Bool} {vs : List Str} {y z : Slot} {rest : List Slot} {h : Str} {l : Char}
    (hc : Chosen s vs.length 0 vs ((y :: z :: rest).map Slot.rafsi) ((y :: z :: rest).map (opt s)))
    (hl : (wordOf (y :: z :: rest) h).getLast? = some l) (hr : RightEnd g l) :
    tosAll g (y :: z :: rest) = some .tosynone ↔
      (g = false → ¬ Tosmabru (y :: z :: rest)) ∧ (g = false → ¬ Tosyhuhu (y :: z :: rest)) := by
  have hforms := chosen_forms hc
  refine tosAll_iff (fun w hw => ?_) ?_ ?_
  · obtain ⟨f, l, hf⟩ := hforms w hw
    exact form_tosOk hf
  · obtain ⟨f, l, hf⟩ := hforms y (by simp)
    exact form_tarmi hf
  · rintro rfl ⟨q, hq, hb1, hb2⟩
    obtain ⟨zs', ezs⟩ := List.getLast?_eq_some_iff.1 hq
    have hzs' : zs' ≠ [] := by
      rintro rfl
      have := congrArg List.length ezs
      simp at this
    have hqm : q ∈ y :: z :: rest := by rw [ezs]; simp
    obtain ⟨f, l', hf⟩ := hforms q hqm
    rw [ezs, wordOf_snoc hzs', getLast?_append_ne _ (slot_ne hf), hb2] at hl
    obtain ⟨a, b', c, hx, -, -, hcon⟩ := tarmi_cvc.1 (pattern_cvc.1 hb1)
    rw [hx] at hl
    simp at hl
    subst hl
    rcases hr with ⟨hv, -⟩ | ⟨-, h⟩
    · rw [not_consonant_of_vowel hv] at hcon; cases hcon
    · cases h

/-- What the search builds, as slots. -/
theorem built_slots {b : Build} {s : Settings} {g : Bool} {vs : List Str} {ll : List (List RafsiOpt)} {rs : List RafsiOpt} {c : Cand} {l : Char}
    (hll : getRafsiListList (program b) s vs = .ok ll) (hp : Picks ll rs) (hb : Built (combineOpts s g) ll.length rs c)
    (hct : c.tos = .tosynone) (hcc : c.consonants = 2) (hl : c.lujvo.getLast? = some l) (hr : RightEnd g l) :
    ∃ zs h, rs = zs.map (opt s) ∧ Represents b s vs.length 0 vs zs ∧ Chosen s vs.length 0 vs (zs.map Slot.rafsi) rs ∧
      Legal s g zs h ∧ c.lujvo = wordOf zs h ∧ c.score = cost zs h := by
  have hlen := rafsiListListFrom_length hll
  have hpick := rafsiListListFrom_iff hll
  obtain ⟨zs, hrep, rfl⟩ := (hpick _).1 hp
  have hzlen := represents_length hrep
  have h2 := hb.count
  match zs, h2 with
  | y :: z :: rest, _ =>
    have hc := represents_chosen hll hrep
    rw [hlen] at hb
    obtain ⟨h, h1, hj, ht, hsh⟩ := (built_iff (g := g) rest hc (by rw [← hzlen]; simp)).1 c hb
    rw [hsh.lujvo] at hl
    rw [hct] at ht
    obtain ⟨t1, t2⟩ := (tos_end hc hl hr).1 ht
    refine ⟨y :: z :: rest, h, rfl, hrep, hc, ⟨⟨y, z, rest, rfl, by rw [hzlen]; exact h1⟩, hj, t1, t2, ?_, l, hl, rightEnd_iff.1 hr⟩,
      hsh.lujvo, hsh.score⟩
    rw [enough_iff, ← hsh.consonants]; exact hcc

/-- The lujvo of the components are what the search can build. -/
theorem lujvoOf_iff {b : Build} {s : Settings} {g : Bool} {vs : List Str} {ll : List (List RafsiOpt)} {w : Str} {sc : Int}
    (hll : getRafsiListList (program b) s vs = .ok ll) :
    LujvoOf b s g vs w sc ↔ ∃ rs c l, Picks ll rs ∧ Built (combineOpts s g) ll.length rs c ∧ c.tos = .tosynone ∧
      c.consonants = 2 ∧ c.lujvo.getLast? = some l ∧ RightEnd g l ∧ w = c.lujvo ∧ sc = c.score := by
  have hlen := rafsiListListFrom_length hll
  have hpick := rafsiListListFrom_iff hll
  constructor
  · rintro ⟨zs, h, hrep, ⟨hfirst, hj, ht1, ht2, hcons, l, hl, hr⟩, rfl, rfl⟩
    have hzlen := represents_length hrep
    obtain ⟨y, z, rest, rfl, hfirst⟩ := hfirst
    have hc := represents_chosen hll hrep
    have hr := rightEnd_iff.2 hr
    rw [hzlen] at hfirst
    have htos := (tos_end hc hl hr).2 ⟨ht1, ht2⟩
    obtain ⟨c, hb, hct, hsh⟩ := (built_iff (g := g) rest hc (by rw [← hzlen]; simp)).2 h .tosynone hfirst hj htos
    refine ⟨_, c, l, (hpick _).2 ⟨_, hrep, rfl⟩, by rw [hlen]; exact hb, hct, ?_, ?_, hr, hsh.lujvo.symm, hsh.score.symm⟩
    · rw [hsh.consonants]; exact enough_iff.1 hcons
    · rw [hsh.lujvo]; exact hl
  · rintro ⟨rs, c, l, hp, hb, hct, hcc, hl, hr, rfl, rfl⟩
    obtain ⟨zs, h, -, hrep, -, hL, e1, e2⟩ := built_slots hll hp hb hct hcc hl hr
    exact ⟨zs, h, hrep, hL, e1, e2⟩

/-- A lujvo costs at most 1100 for each letter. -/
theorem cost_le (zs : List Slot) (h : Str) : cost zs h ≤ 1100 * ((wordOf zs h).length : Int) := by
  unfold cost
  have : (wordOf zs h).count 'y' ≤ (wordOf zs h).length := List.count_le_length
  split <;> omega

end Jvotci
