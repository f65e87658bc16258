import Verif.Lemmas.Best
import Verif.Props.Readings

/-!
# Helper lemmas: the hyphens of a lujvo made of given rafsi

A word is given as a list of pairs: a rafsi and the hyphen behind it (perhaps empty). `Canon` describes the
hyphens the search puts between given rafsi.
-/

namespace Jvotci

open Spec

/-- The kind of a rafsi. -/
def kindOf (x : Str) : Kind :=
  match rafsiTarmi x with
  | .cvv | .cvhv => .vv
  | .ccv => .ccv
  | .cvc => .cvc
  | .cvcc | .ccvc => .short
  | .cvccv | .ccvcv => .long
  | _ => .exp

theorem kindOf_iff {mz : Bool} {x : Str} {k : Kind} (h : Rafsi mz x) : ShapeKind x k ↔ k = kindOf x := by
  rw [shapeKind_iff]
  have := rafsi_tarmi h
  unfold kindOf
  cases hx : rafsiTarmi x <;> simp only [hx, TypeKind] at this ⊢ <;> simp at this

/-- A rafsi with its letters and its kind. -/
inductive RK (mz : Bool) : Str → Kind → Prop
  | cvv {a b c} : Consonant a → Vowel b → Vowel c → RK mz [a, b, c] .vv
  | cvhv {a b c} : Consonant a → Vowel b → Vowel c → RK mz [a, b, '\'', c] .vv
  | cvc {a b c} : Consonant a → Vowel b → Consonant c → RK mz [a, b, c] .cvc
  | ccv {a b c} : InitialPair a b → Vowel c → RK mz [a, b, c] .ccv
  | cvcc {a b c d} : Consonant a → Vowel b → PermissiblePair mz c d → RK mz [a, b, c, d] .short
  | ccvc {a b c d} : InitialPair a b → Vowel c → Consonant d → RK mz [a, b, c, d] .short
  | cvccv {a b c d e} : Consonant a → Vowel b → PermissiblePair mz c d → Vowel e → RK mz [a, b, c, d, e] .long
  | ccvcv {a b c d e} : InitialPair a b → Vowel c → Consonant d → Vowel e → RK mz [a, b, c, d, e] .long

theorem rafsi_rk {mz : Bool} {x : Str} (h : Rafsi mz x) : RK mz x (kindOf x) := by
  have hc := fun c => (isConsonant_iff c).2
  have hv := fun c => (isVowel_iff c).2
  cases h with
  | @cvv a b c h1 h2 h3 =>
    have : kindOf [a, b, c] = .vv := by
      unfold kindOf; rw [tarmi_cvv.2 ⟨a, b, c, rfl, hc _ h1, hv _ h2, hv _ h3⟩]
    rw [this]; exact .cvv h1 h2 h3
  | @cvhv a b c h1 h2 h3 =>
    have : kindOf [a, b, '\'', c] = .vv := by
      unfold kindOf; rw [tarmi_cvhv.2 ⟨a, b, c, rfl, hc _ h1, hv _ h2, hv _ h3⟩]
    rw [this]; exact .cvhv h1 h2 h3
  | @cvc a b c h1 h2 h3 =>
    have : kindOf [a, b, c] = .cvc := by
      unfold kindOf; rw [tarmi_cvc.2 ⟨a, b, c, rfl, hc _ h1, hv _ h2, hc _ h3⟩]
    rw [this]; exact .cvc h1 h2 h3
  | @ccv a b c h1 h2 =>
    have hi := initial_cons h1
    have : kindOf [a, b, c] = .ccv := by
      unfold kindOf; rw [tarmi_ccv.2 ⟨a, b, c, rfl, hi.1, hi.2, hv _ h2⟩]
    rw [this]; exact .ccv h1 h2
  | @cvcc a b c d h1 h2 h3 =>
    have : kindOf [a, b, c, d] = .short := by
      unfold kindOf; rw [tarmi_cvcc.2 ⟨a, b, c, d, rfl, hc _ h1, hv _ h2, hc _ h3.1, hc _ h3.2.1⟩]
    rw [this]; exact .cvcc h1 h2 h3
  | @ccvc a b c d h1 h2 h3 =>
    have hi := initial_cons h1
    have : kindOf [a, b, c, d] = .short := by
      unfold kindOf; rw [tarmi_ccvc.2 ⟨a, b, c, d, rfl, hi.1, hi.2, hv _ h2, hc _ h3⟩]
    rw [this]; exact .ccvc h1 h2 h3
  | gismu hg =>
    cases hg with
    | @cvccv a b c d e h1 h2 h3 h4 =>
      have : kindOf [a, b, c, d, e] = .long := by
        unfold kindOf; rw [tarmi_cvccv.2 ⟨a, b, c, d, e, rfl, hc _ h1, hv _ h2, hc _ h3.1, hc _ h3.2.1, hv _ h4⟩]
      rw [this]; exact .cvccv h1 h2 h3 h4
    | @ccvcv a b c d e h1 h2 h3 h4 =>
      have hi := initial_cons h1
      have : kindOf [a, b, c, d, e] = .long := by
        unfold kindOf; rw [tarmi_ccvcv.2 ⟨a, b, c, d, e, rfl, hi.1, hi.2, hv _ h2, hc _ h3, hv _ h4⟩]
      rw [this]; exact .ccvcv h1 h2 h3 h4

/-- `zs` is one slot for each of the rafsi `xs`. -/
inductive Fits : Bool → List Str → List Slot → Prop
  | nil {f} : Fits f [] []
  | cons {f x xs z zs} : z.rafsi = x → z.kind = kindOf x → z.Written f xs.isEmpty → Fits false xs zs → Fits f (x :: xs) (z :: zs)

/-- A rafsi between dashes. -/
def dash (x : Str) : Str := s%"-" ++ x ++ s%"-"

theorem dash_dashed {mz : Bool} {x : Str} (h : Rafsi mz x) : Dashed (dash x) x :=
  ⟨fun hm => rafsi_no_dash h _ hm rfl, 0, 0, rfl⟩

theorem represents_fits {b : Build} {s : Settings} {n : Nat} : ∀ {xs : List Str} {i : Nat} {zs : List Slot},
    (∀ x ∈ xs, Rafsi s.allowMz x) → i + xs.length = n →
    (Represents b s n i (xs.map dash) zs ↔ Fits (i == 0) xs zs) := by
  intro xs
  induction xs with
  | nil =>
    intro i zs _ _
    constructor
    · rintro ⟨⟩; exact .nil
    · rintro ⟨⟩; exact .nil
  | cons x xs ih =>
    intro i zs hx hn
    have hr := hx x (by simp)
    have hlast : (i + 1 == n) = xs.isEmpty := by
      cases xs with
      | nil => simp at hn ⊢; exact hn
      | cons y xs => simp at hn ⊢; omega
    have hne : x ≠ [] := by
      have := rafsi_length hr
      rintro rfl; simp at this
    have ih := @ih (i + 1)
    have hi : (i + 1 == 0) = false := by simp
    constructor
    · intro h
      cases h with
      | @cons _ _ _ z zs hu hw hz =>
        obtain ⟨e, h1, -⟩ := usable_dash hu (dashed_last (dash_dashed hr)) (dashed_strip (dash_dashed hr))
        have h1 := h1 ⟨dashed_head (dash_dashed hr), hne⟩
        have hk : z.kind = kindOf x := by
          have ho : shapeScore x ≠ 0 := by
            intro h; have := rafsi_tarmi hr; rw [shapeScore_other] at h; exact h.elim this.1 this.2
          rcases h1 with ⟨-, h1⟩ | ⟨h1, -⟩ | ⟨h1, -⟩
          · rw [e] at h1; exact (kindOf_iff hr).1 h1
          · rw [e] at h1; exact absurd h1 ho
          · rw [e] at h1; exact absurd h1 ho
        rw [hlast] at hw
        refine .cons e hk hw ?_
        have := (@ih zs (fun y hy => hx y (by simp [hy])) (by simp at hn; omega)).1 hz
        rwa [hi] at this
    · intro h
      cases h with
      | @cons _ _ _ z zs e hk hw hz =>
        rw [← hi] at hz
        refine .cons ?_ (by rw [hlast]; exact hw) ((@ih zs (fun y hy => hx y (by simp [hy])) (by simp at hn; omega)).2 hz)
        rw [e]
        exact .rafsi (dash_dashed hr) hr ((kindOf_iff hr).2 hk)

/-! ## The hyphens -/

/-- A y is needed between `x` and `x'`. -/
def NeedY (mz : Bool) (x x' : Str) : Prop :=
  kindOf x = .short ∨ (kindOf x = .cvc ∧ ∃ c, x.getLast? = some c ∧
    ((∀ d, x'.head? = some d → ¬ PermissiblePair mz c d) ∨ c :: x'.take 2 ∈ bannedTriples))

open Classical in
/-- The hyphen at a joint that is not the first. -/
noncomputable def lateHyphen (mz : Bool) (x x' : Str) : Str := if NeedY mz x x' then s%"y" else []

/-- Only the needed y: the part of a word behind the first joint. -/
inductive Tail (mz : Bool) : List (Str × Str) → Prop
  | last {x} : Tail mz [(x, [])]
  | more {x x' h' t} : Tail mz ((x', h') :: t) → Tail mz ((x, lateHyphen mz x x') :: (x', h') :: t)

/-- The last letter of `x` and the first of `x'` are an initial pair. -/
def Meet (x x' : Str) : Prop := ∃ a b, x.getLast? = some a ∧ x'.head? = some b ∧ InitialPair a b

/-- The word falls apart (tosmabru). -/
inductive Tosm : List (Str × Str) → Prop
  | gismu {x a b c d e h t} : kindOf x = .cvc → Meet x [a, b, c, d, e] → pattern [a, b, c, d, e] = s%"CVCCV" → InitialPair c d →
      Tosm ((x, []) :: ([a, b, c, d, e], h) :: t)
  | y {x x' t} : kindOf x = .cvc → Meet x x' → kindOf x' = .cvc → Tosm ((x, []) :: (x', s%"y") :: t)
  | step {x x' h' t} : kindOf x = .cvc → Meet x x' → Tosm ((x', h') :: t) → Tosm ((x, []) :: (x', h') :: t)

open Classical in
/-- The hyphen at the first joint. -/
noncomputable def firstHyphen (s : Settings) (g : Bool) (x x' h' : Str) (t : List (Str × Str)) : Str :=
  if NeedY s.allowMz x x' then s%"y"
  else if kindOf x = .vv ∧ g = false ∧ ¬ (t = [] ∧ kindOf x' = .ccv) then
    if s.yHyphens = .forceY then s%"'y" else if x'.head? = some 'r' then s%"n" else s%"r"
  else if g = false ∧ Tosm ((x, []) :: (x', h') :: t) then s%"y"
  else []

/-- The hyphens of a lujvo, or of a cmevla if `g`. -/
inductive Canon (s : Settings) (g : Bool) : List (Str × Str) → Prop
  | mk {x x' h' t} : Tail s.allowMz ((x', h') :: t) → Canon s g ((x, firstHyphen s g x x' h' t) :: (x', h') :: t)

/-- The letters of a word. -/
def spell (l : List (Str × Str)) : Str := (l.map (fun p => p.1 ++ p.2)).flatten

/-- 1000 for each letter and 100 more for each y. -/
def letterCost (w : Str) : Int := 1000 * (w.length : Int) + 100 * ((w.count 'y' : Nat) : Int)

theorem letterCost_append (u v : Str) : letterCost (u ++ v) = letterCost u + letterCost v := by
  unfold letterCost; simp [List.count_append]; omega

theorem letterCost_nonneg (u : Str) : 0 ≤ letterCost u := by unfold letterCost; omega

theorem letterCost_pos {u : Str} (h : u ≠ []) : 1000 ≤ letterCost u := by
  unfold letterCost
  have : 0 < u.length := List.length_pos_iff.2 h
  omega

theorem rk_last {mz : Bool} {x : Str} {k : Kind} (h : RK mz x k) :
    ∃ l, x.getLast? = some l ∧ ((k = .cvc ∨ k = .short) → Consonant l) ∧ ((k = .vv ∨ k = .ccv ∨ k = .long) → Vowel l) := by
  cases h with
  | cvv _ _ h => exact ⟨_, rfl, by simp, fun _ => h⟩
  | cvhv _ _ h => exact ⟨_, rfl, by simp, fun _ => h⟩
  | cvc _ _ h => exact ⟨_, rfl, fun _ => h, by simp⟩
  | ccv _ h => exact ⟨_, rfl, by simp, fun _ => h⟩
  | cvcc _ _ h => exact ⟨_, rfl, fun _ => h.2.1, by simp⟩
  | ccvc _ _ h => exact ⟨_, rfl, fun _ => h, by simp⟩
  | cvccv _ _ _ h => exact ⟨_, rfl, by simp, fun _ => h⟩
  | ccvcv _ _ _ h => exact ⟨_, rfl, by simp, fun _ => h⟩

theorem rafsi_kind {mz : Bool} {x : Str} (h : Rafsi mz x) : kindOf x ≠ .exp := by
  have := rafsi_rk h
  intro e
  rw [e] at this
  cases this

/-- A rafsi has no apostrophe before it. -/
theorem leading_rafsi {mz : Bool} {x : Str} (h : Rafsi mz x) (f : Bool) : leading f x = [] := by
  obtain ⟨a, t, rfl, ha⟩ := rafsi_first h
  unfold leading
  rw [if_neg]
  rintro ⟨-, hv, -⟩
  rw [show VowelInitial (a :: t) = Vowel a from rfl, ← isVowel_iff] at hv
  rw [not_consonant_of_vowel hv] at ha; cases ha

theorem written_rafsi {mz f l : Bool} {z : Slot} (h : Rafsi mz z.rafsi) :
    z.Written f l ↔ ∃ h, z.text = z.rafsi ++ h ∧ Trailing f l z.rafsi z.kind h := by
  unfold Slot.Written
  rw [leading_rafsi h]
  rfl

theorem head_append {x : Str} (h : x ≠ []) (u : Str) : (x ++ u).head? = x.head? := by
  cases x with
  | nil => exact absurd rfl h
  | cons a x => rfl

theorem rafsi_ne {mz : Bool} {x : Str} (h : Rafsi mz x) : x ≠ [] := by
  have := rafsi_length h
  rintro rfl; simp at this

theorem take2_append {x : Str} (h : 2 ≤ x.length) (u : Str) : (x ++ u).take 2 = x.take 2 :=
  List.take_append_of_le_length h

/-- With a joint that needs a y the first slot ends in y. -/
theorem joint_needY {mz : Bool} {f : Bool} {z z' : Slot} {h' : Str} (hz : Rafsi mz z.rafsi) (hz' : Rafsi mz z'.rafsi)
    (hk : z.kind = kindOf z.rafsi) (hw : z.Written f false) (ht : z'.text = z'.rafsi ++ h')
    (hj : Joint mz z z') (hn : NeedY mz z.rafsi z'.rafsi) : z.text = z.rafsi ++ s%"y" := by
  obtain ⟨h, e, htr⟩ := (written_rafsi hz).1 hw
  rcases hn with hn | ⟨hcv, c, hc, hn⟩
  · rw [hk, hn] at htr
    simp [Trailing] at htr
    rw [e, htr]
  · rw [hk, hcv] at htr
    simp [Trailing] at htr
    rcases htr with rfl | rfl
    · exfalso
      rw [List.append_nil] at e
      have hlz := rafsi_length hz'
      obtain ⟨d, t, hd, hdc⟩ := rafsi_first hz'
      rcases hn with hn | hn
      · refine hn d (by rw [hd]; rfl) (hj.pair c d (by rw [e]; exact hc) ?_ ?_ ((isConsonant_iff _).1 hdc))
        · rw [ht, hd]; rfl
        · obtain ⟨l, hl, h1, -⟩ := rk_last (rafsi_rk hz)
          rw [hc] at hl; cases hl
          exact h1 (.inl hcv)
      · refine hj.triple c (by rw [e]; exact hc) ?_
        rw [ht, take2_append (by omega)]
        exact hn
    · exact e

theorem fits_text {mz f : Bool} {x : Str} {xs : List Str} {z : Slot} {zs : List Slot} (h : Fits f (x :: xs) (z :: zs))
    (hx : Rafsi mz x) : ∃ h, z.text = x ++ h ∧ Trailing f xs.isEmpty x (kindOf x) h := by
  cases h with
  | cons e hk hw _ =>
    subst e
    obtain ⟨h, e, ht⟩ := (written_rafsi hx).1 hw
    exact ⟨h, e, by rw [← hk]; exact ht⟩

/-- The needed hyphens are the fewest. -/
theorem tail_min {mz : Bool} {l : List (Str × Str)} (h : Tail mz l) : ∀ {zs : List Slot}, (∀ p ∈ l, Rafsi mz p.1) →
    Fits false (l.map Prod.fst) zs → (∀ y z, Beside zs y z → Joint mz y z) →
    (zs.map Slot.text).flatten = spell l ∨ letterCost (spell l) + 1000 ≤ letterCost (zs.map Slot.text).flatten := by
  induction h with
  | @last x =>
    intro zs hr hf _
    have hx := hr (x, []) (by simp)
    cases hf with
    | @cons _ _ _ z zs e hk hw hz =>
      cases hz
      subst e
      obtain ⟨h, e, ht⟩ := (written_rafsi hx).1 hw
      simp only [spell, List.map_cons, List.map_nil, List.flatten_cons, List.flatten_nil, List.append_nil, e]
      by_cases hh : h = []
      · subst hh; simp
      · right
        rw [letterCost_append]
        have := letterCost_pos hh
        omega
  | @more x x' h' t hT ih =>
    intro zs hr hf hj
    have hx : Rafsi mz x := hr (x, lateHyphen mz x x') (by simp)
    have hx' := hr (x', h') (by simp)
    cases hf with
    | @cons _ _ _ z zs e hk hw hz =>
      subst e
      have ih := ih (fun p hp => hr p (by simp at hp ⊢; exact .inr hp)) hz (fun y z' ⟨u, v, h⟩ => hj y z' ⟨z :: u, v, by simp [h]⟩)
      have hz' := hz
      cases hz with
      | @cons _ _ _ z' zs e' hk' hw' hzz =>
        subst e'
        obtain ⟨hh, e, htr⟩ := (written_rafsi hx).1 hw
        obtain ⟨hh', ht'⟩ := fits_text hz' hx'
        have hsp : spell ((z.rafsi, lateHyphen mz z.rafsi z'.rafsi) :: (z'.rafsi, h') :: t) =
            z.rafsi ++ lateHyphen mz z.rafsi z'.rafsi ++ spell ((z'.rafsi, h') :: t) := by simp [spell]
        rw [hsp, List.map_cons, List.flatten_cons]
        have h1 : z.text = z.rafsi ++ lateHyphen mz z.rafsi z'.rafsi ∨
            letterCost (z.rafsi ++ lateHyphen mz z.rafsi z'.rafsi) + 1000 ≤ letterCost z.text := by
          unfold lateHyphen
          split
          · rename_i hn
            exact .inl (joint_needY hx hx' hk hw ht'.1 (hj _ _ ⟨[], zs, rfl⟩) hn)
          · rw [List.append_nil, e]
            by_cases hh0 : hh = []
            · left; simp [hh0]
            · right
              rw [letterCost_append]
              have := letterCost_pos hh0
              omega
        simp only [letterCost_append]
        rw [letterCost_append] at h1
        rcases h1 with h1 | h1
        · rcases ih with ih | ih
          · left; rw [h1, ih]
          · right; rw [h1, letterCost_append]; omega
        · right
          rcases ih with ih | ih
          · rw [ih]; omega
          · omega

theorem kind_cvc {x : Str} (h : kindOf x = .cvc) : rafsiTarmi x = .cvc := by
  unfold kindOf at h
  cases hx : rafsiTarmi x <;> simp [hx] at h ⊢

theorem kind_vv {x : Str} : kindOf x = .vv ↔ rafsiTarmi x = .cvv ∨ rafsiTarmi x = .cvhv := by
  unfold kindOf
  cases hx : rafsiTarmi x <;> simp

theorem kind_ccv {x : Str} : kindOf x = .ccv ↔ rafsiTarmi x = .ccv := by
  unfold kindOf
  cases hx : rafsiTarmi x <;> simp

theorem kind_cvc_iff {x : Str} : kindOf x = .cvc ↔ rafsiTarmi x = .cvc := by
  unfold kindOf
  cases hx : rafsiTarmi x <;> simp

theorem lateHyphen_y {mz : Bool} {x x' : Str} (h : lateHyphen mz x x' = s%"y") : NeedY mz x x' := by
  unfold lateHyphen at h
  split at h
  · assumption
  · cases h

theorem tosm_bare {x h : Str} {t : List (Str × Str)} (ht : Tosm ((x, h) :: t)) : kindOf x = .cvc ∧ h = [] := by
  cases ht with
  | gismu h => exact ⟨h, rfl⟩
  | y h => exact ⟨h, rfl⟩
  | step h => exact ⟨h, rfl⟩

/-- Unless the first rafsi has a y, the word falls apart whatever other hyphens there are. -/
theorem tosm_slots {mz : Bool} {l : List (Str × Str)} (h : Tosm l) : ∀ {x h : Str} {l' : List (Str × Str)} {f : Bool} {y : Slot}
    {zs : List Slot}, l = (x, h) :: l' → Tail mz l' → (∀ p ∈ l, Rafsi mz p.1) → Fits f (l.map Prod.fst) (y :: zs) → y.text = x →
    (∀ y' z, Beside (y :: zs) y' z → Joint mz y' z) → Tosmabru (y :: zs) := by
  induction h with
  | @gismu x a b c d e h t hk hm hp hi =>
    intro x h l' f y zs el hT hr hf hy hj
    cases el
    have hx' : Rafsi mz [a, b, c, d, e] := hr ([a, b, c, d, e], h) (by simp)
    cases hf with
    | @cons _ _ _ _ zs ey _ _ hz =>
      have hz0 := hz
      cases hz with
      | @cons _ _ _ z zs ez _ _ hz =>
        obtain ⟨hh, ht⟩ := fits_text hz0 hx'
        refine (tosmabru_cons ⟨by rw [ey, pattern_cvc]; exact kind_cvc hk, by rw [hy, ey]⟩).2 ⟨?_, .inl (.inl ?_)⟩
        · obtain ⟨p, q, h1, h2, h3⟩ := hm
          exact ⟨p, q, by rw [hy]; exact h1, by rw [ht.1]; exact h2, h3⟩
        · rw [ez]; exact ⟨hp, a, b, c, d, e, rfl, hi⟩
  | @y x x' t hk hm hk' =>
    intro x h l' f y zs el hT hr hf hy hj
    cases el
    have hx' : Rafsi mz x' := hr (x', s%"y") (by simp)
    cases hf with
    | @cons _ _ _ _ zs ey _ _ hz =>
      have hz0 := hz
      cases hz with
      | @cons _ _ _ z zs ez hkz hwz hz =>
        obtain ⟨hh, ht⟩ := fits_text hz0 hx'
        refine (tosmabru_cons ⟨by rw [ey, pattern_cvc]; exact kind_cvc hk, by rw [hy, ey]⟩).2 ⟨?_, .inl (.inr ?_)⟩
        · obtain ⟨p, q, h1, h2, h3⟩ := hm
          exact ⟨p, q, by rw [hy]; exact h1, by rw [ht.1, head_append (rafsi_ne hx')]; exact h2, h3⟩
        · refine ⟨by rw [ez, pattern_cvc]; exact kind_cvc hk', ?_⟩
          generalize hlh : s%"y" = yy at hT
          cases hT with
          | last => cases hlh
          | @more _ x2 h2 t2 hT =>
            have hx2 : Rafsi mz x2 := hr (x2, h2) (by simp)
            have hz1 := hz
            cases hz with
            | @cons _ _ _ z2 zs2 e2 hk2 hw2 hz =>
              obtain ⟨hh2, ht2⟩ := fits_text hz1 hx2
              subst ez e2
              rw [← hlh]
              exact joint_needY hx' hx2 hkz hwz ht2.1 (hj _ _ ⟨[y], _, rfl⟩) (lateHyphen_y hlh.symm)
  | @step x x' h' t hk hm hto ih =>
    intro x h l' f y zs el hT hr hf hy hj
    cases el
    have hx' : Rafsi mz x' := hr (x', h') (by simp)
    obtain ⟨hk', rfl⟩ := tosm_bare hto
    cases hf with
    | @cons _ _ _ _ zs ey _ _ hz =>
      have hz0 := hz
      cases hz with
      | @cons _ _ _ z zs ez hkz hwz hz =>
        obtain ⟨hh, ht, htr⟩ := fits_text hz0 hx'
        have hbare : Bare y := ⟨by rw [ey, pattern_cvc]; exact kind_cvc hk, by rw [hy, ey]⟩
        refine (tosmabru_cons hbare).2 ⟨?_, ?_⟩
        · obtain ⟨p, q, h1, h2, h3⟩ := hm
          exact ⟨p, q, by rw [hy]; exact h1, by rw [ht, head_append (rafsi_ne hx')]; exact h2, h3⟩
        · rw [hk'] at htr
          rcases htr with rfl | ⟨rfl, -⟩
          · right
            rw [List.append_nil] at ht
            refine ih rfl ?_ (fun p hp => hr p (by simp at hp ⊢; exact .inr hp)) hz0 ht
              (fun a b ⟨u, v, e⟩ => hj a b ⟨y :: u, v, by rw [e]; rfl⟩)
            generalize hlh : ([] : Str) = yy at hT
            cases hT with
            | last => cases hto
            | more hT => exact hT
          · left; right
            exact ⟨by rw [ez, pattern_cvc]; exact kind_cvc hk', by rw [ez]; exact ht⟩

theorem fits_length {f : Bool} {xs : List Str} {zs : List Slot} (h : Fits f xs zs) : zs.length = xs.length := by
  induction h with
  | nil => rfl
  | cons _ _ _ _ ih => simp [ih]

/-- The canonical hyphens are the fewest with which the rafsi make a lujvo. -/
theorem canon_min {s : Settings} {g : Bool} {l : List (Str × Str)} {zs : List Slot} {hy : Str} (h : Canon s g l)
    (hr : ∀ p ∈ l, Rafsi s.allowMz p.1) (hf : Fits true (l.map Prod.fst) zs) (hL : Legal s g zs hy) :
    wordOf zs hy = spell l ∨ letterCost (spell l) + 1000 ≤ letterCost (wordOf zs hy) := by
  cases h with
  | @mk x x' h' t hT =>
    obtain ⟨⟨y, z, rest, rfl, hfirst⟩, hj, htos, -, -, -⟩ := hL
    have hx : Rafsi s.allowMz x := hr (x, _) (List.mem_cons_self ..)
    have hx' : Rafsi s.allowMz x' := hr (x', h') (by simp)
    simp only [List.map_cons] at hf
    obtain ⟨hh, ht, htr⟩ := fits_text hf hx
    cases hf with
    | cons ey hky hwy hz =>
      have hz0 : Fits false (((x', h') :: t).map Prod.fst) (z :: rest) := hz
      obtain ⟨hh', ht', htr'⟩ := fits_text hz hx'
      have htail := tail_min hT (fun p hp => hr p (by simp at hp ⊢; exact .inr hp)) hz
        (fun a b ⟨u, v, e⟩ => hj a b ⟨y :: u, v, by rw [e]; rfl⟩)
      cases hz with
      | cons ez hkz hwz hz =>
        have hxl : ∃ c, x.getLast? = some c ∧ ((kindOf x = .cvc ∨ kindOf x = .short) → Consonant c) ∧
            (kindOf x = .vv ∨ kindOf x = .ccv ∨ kindOf x = .long → Vowel c) := rk_last (rafsi_rk hx)
        obtain ⟨c, hc, hcc, hcv⟩ := hxl
        have hlen : (rest = [] ↔ t = []) := by
          have := fits_length hz
          rw [List.length_map] at this
          rw [← List.length_eq_zero_iff, ← List.length_eq_zero_iff, this]
        have hsp : spell ((x, firstHyphen s g x x' h' t) :: (x', h') :: t) =
            x ++ firstHyphen s g x x' h' t ++ spell ((x', h') :: t) := by simp [spell]
        have hwo : wordOf (y :: z :: rest) hy = (y.text ++ hy) ++ ((z :: rest).map Slot.text).flatten := rfl
        rw [hsp, hwo]
        have key : y.text ++ hy = x ++ firstHyphen s g x x' h' t ∨
            letterCost (x ++ firstHyphen s g x x' h' t) + 1000 ≤ letterCost (y.text ++ hy) := by
          rw [ht]
          have hnvv : kindOf x ≠ .vv → pattern y.rafsi ∉ [s%"CVV", s%"CV'V"] := by
            intro h hm
            apply h
            rw [kind_vv, ← pattern_cvv, ← pattern_cvhv, ← ey]
            simpa using hm
          have hyh : kindOf x ≠ .vv → hh ≠ s%"'" → hy = [] := by
            intro hv hq
            rcases hfirst with ⟨h1, -⟩ | ⟨-, -, h1⟩
            · exfalso
              rw [ht] at h1
              have hnc : ¬ (Vowel '\'' ∨ Consonant '\'') := by decide
              have hlast : x.getLast? ≠ some '\'' := by
                rw [hc]; rintro ⟨⟩
                cases hkx : kindOf x with
                | exp => exact rafsi_kind hx hkx
                | vv => exact hv hkx
                | ccv => exact hnc (.inl (hcv (.inr (.inl hkx))))
                | long => exact hnc (.inl (hcv (.inr (.inr hkx))))
                | cvc => exact hnc (.inr (hcc (.inl hkx)))
                | short => exact hnc (.inr (hcc (.inr hkx)))
              cases hkx : kindOf x <;> rw [hkx] at htr <;> simp [Trailing] at htr
              · exact hv hkx
              · rcases htr with rfl | rfl <;> simp at h1; exact hlast h1
              · rcases htr with rfl | rfl <;> simp at h1; exact hlast h1
              · rw [htr] at h1; simp at h1
              · rw [htr] at h1; simp at h1
              · exact rafsi_kind hx hkx
            · rw [if_neg (fun hh => hnvv hv hh.1)] at h1; exact h1
          cases hkx : kindOf x with
          | exp => exact absurd hkx (rafsi_kind hx)
          | vv =>
            have hnn : ¬ NeedY s.allowMz x x' := by
              rintro (h | ⟨h, -⟩) <;> rw [hkx] at h <;> cases h
            have hnt : ¬ Tosm ((x, []) :: (x', h') :: t) := by
              intro h; have := (tosm_bare h).1; rw [hkx] at this; cases this
            unfold firstHyphen
            rw [if_neg hnn]
            rw [hkx] at htr
            simp [Trailing] at htr
            have hvow : Vowel c := hcv (.inl hkx)
            rcases htr with rfl | rfl
            · have hl : (x ++ []).getLast? = some c := by rw [List.append_nil]; exact hc
              rcases hfirst with ⟨h1, -⟩ | ⟨-, -, h1⟩
              · rw [ht, hl] at h1; cases h1; exact absurd hvow (by decide)
              · left
                rw [List.append_nil, h1, ey, ez, ht', head_append (rafsi_ne hx')]
                have e1 : pattern x ∈ [s%"CVV", s%"CV'V"] := by
                  simp only [List.mem_cons, List.not_mem_nil, or_false]
                  rw [pattern_cvv, pattern_cvhv, ← kind_vv]; exact hkx
                have e2 : ((y :: z :: rest).length = 2 ∧ pattern x' = s%"CCV") ↔ (t = [] ∧ kindOf x' = .ccv) := by
                  rw [pattern_ccv, kind_ccv, ← hlen]; simp
                simp only [e1, hkx, e2, true_and]
                by_cases hq : g = false ∧ ¬ (t = [] ∧ kindOf x' = .ccv)
                · rw [if_pos hq, if_pos hq]
                · rw [if_neg hq, if_neg hq, if_neg (fun h => hnt h.2)]
            · rcases hfirst with ⟨-, h1, -⟩ | ⟨h1, -⟩
              · rw [h1]
                have e3 : x ++ s%"'" ++ s%"y" = x ++ s%"'y" := by simp
                rw [e3]
                split
                · split
                  · exact .inl rfl
                  · right; simp only [letterCost_append]; split <;> simp [letterCost] <;> omega
                · rw [if_neg (fun h => hnt h.2)]
                  right; simp only [letterCost_append]; simp [letterCost]
              · rw [ht] at h1; simp at h1
          | ccv =>
            have hnn : ¬ NeedY s.allowMz x x' := by
              rintro (h | ⟨h, -⟩) <;> rw [hkx] at h <;> cases h
            have hnt : ¬ Tosm ((x, []) :: (x', h') :: t) := by
              intro h; have := (tosm_bare h).1; rw [hkx] at this; cases this
            unfold firstHyphen
            rw [if_neg hnn, if_neg (by rw [hkx]; simp), if_neg (fun h => hnt h.2)]
            rw [hkx] at htr
            simp [Trailing] at htr
            rcases htr with rfl | rfl
            · left; rw [hyh (by rw [hkx]; simp) (by simp)]; simp
            · right; simp only [letterCost_append]
              have := letterCost_nonneg hy
              simp [letterCost] at *; omega
          | cvc =>
            rw [hkx] at htr
            simp [Trailing] at htr
            have hyn : hy = [] := hyh (by rw [hkx]; simp) (by rcases htr with rfl | rfl <;> simp)
            rw [hyn, List.append_nil]
            rcases htr with rfl | rfl
            · left
              have hnn : ¬ NeedY s.allowMz x x' := by
                intro hn
                have := joint_needY (by rw [ey]; exact hx) (by rw [ez]; exact hx') (by rw [ey]; exact hky) hwy (by rw [ez]; exact ht')
                  (hj _ _ ⟨[], rest, rfl⟩) (by rw [ey, ez]; exact hn)
                rw [ht, ey] at this; simp at this
              unfold firstHyphen
              rw [if_neg hnn, if_neg (by rw [hkx]; simp), if_neg]
              rintro ⟨hg, hto⟩
              refine htos hg (tosm_slots hto rfl hT ?_ (.cons ey hky hwy hz0) (by simpa using ht) hj)
              intro p hp
              rcases List.mem_cons.1 hp with rfl | hp
              · exact hx
              · exact hr p (List.mem_cons_of_mem _ hp)
            · unfold firstHyphen
              rw [if_neg (show ¬ (kindOf x = .vv ∧ g = false ∧ ¬ (t = [] ∧ kindOf x' = .ccv)) by rw [hkx]; simp)]
              split
              · exact .inl rfl
              · split
                · exact .inl rfl
                · right; simp only [letterCost_append]; simp [letterCost]
          | short =>
            have hnn : NeedY s.allowMz x x' := .inl hkx
            unfold firstHyphen
            rw [if_pos hnn]
            rw [hkx] at htr
            simp [Trailing] at htr
            subst htr
            left; rw [hyh (by rw [hkx]; simp) (by simp)]; simp
          | long =>
            have hnn : ¬ NeedY s.allowMz x x' := by
              rintro (h | ⟨h, -⟩) <;> rw [hkx] at h <;> cases h
            have hnt : ¬ Tosm ((x, []) :: (x', h') :: t) := by
              intro h; have := (tosm_bare h).1; rw [hkx] at this; cases this
            unfold firstHyphen
            rw [if_neg hnn, if_neg (by rw [hkx]; simp), if_neg (fun h => hnt h.2)]
            rw [hkx] at htr
            simp [Trailing] at htr
            subst htr
            right; simp only [letterCost_append]
            have := letterCost_nonneg hy
            simp [letterCost] at *; omega
        simp only [letterCost_append] at key ⊢
        rcases key with key | key
        · rcases htail with htail | htail
          · left; rw [key, htail]
          · right
            have := congrArg letterCost key
            simp only [letterCost_append] at this
            omega
        · right
          rcases htail with htail | htail
          · rw [htail]; omega
          · omega

end Jvotci
