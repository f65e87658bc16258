import Verif.SpecJoin
import Verif.Lemmas.GluedWord
import Verif.Lemmas.GluedSlots
import Verif.Lemmas.FoundWords
import Verif.Props.FoundWords

/-!
# Helper lemmas: rafsi and zi'evla joined by y
-/

namespace Jvotci

open Spec

theorem zihevlaWord_whole {s : Settings} {z : Str} (h : ZihevlaWord s z) (hlen : z.length < 10 ^ 90) : ZWhole s z := by
  have hr : reading z = z := by
    have := C01_pieces_spell_word h.1
    simpa using this.symm
  have := (zihevla_component (by rw [hr]; exact h.2) hlen h.1).2
  rwa [hr] at this

/-- A component and what of the hyphen depends on it. -/
def SepUnit (s : Settings) (x h : Str) : Prop := ∃ k, UnitOf s x k ∧ SepBy k h

/-- What a word ends in. -/
def EndUnit (s : Settings) (z : Str) : Prop :=
  (Rafsi s.allowMz z ∧ Diph z ∧ ∃ c, z.getLast? = some c ∧ Vowel c) ∨ ZWhole s z

theorem rafsiBefore_unit {s : Settings} {x h : Str} (hr : RafsiBefore s x h) : SepUnit s x h := by
  obtain ⟨⟨hr, hd⟩, hh⟩ := hr
  refine ⟨_, .rafsi hr hd, ?_⟩
  obtain ⟨l, hl, h1, h2⟩ := rk_last (rafsi_rk hr)
  have hk := rafsi_kind hr
  rcases hh with ⟨⟨c, hc, hcc⟩, rfl⟩ | ⟨⟨c, hc, hcc⟩, rfl⟩
  · rw [hl] at hc; cases hc
    right
    refine ⟨?_, rfl⟩
    generalize kindOf x = k at hk h1 h2
    cases k <;> simp_all
    all_goals exact vowel_not_consonant h2 hcc
  · rw [hl] at hc; cases hc
    left
    refine ⟨?_, rfl⟩
    generalize kindOf x = k at hk h1 h2
    cases k <;> simp_all
    all_goals exact vowel_not_consonant hcc h1

theorem zihevlaBefore_unit {s : Settings} {x h : Str} (hz : ZihevlaBefore s x h) (hlen : x.length + 1 < 10 ^ 90) :
    SepUnit s x h ∧ ((ZWhole s x ∧ h = s%"'y") ∨ (ZCut s x ∧ h = s%"y")) := by
  rcases hz with ⟨h1, rfl⟩ | ⟨h1, h2, h3, rfl⟩
  · have hw := zihevlaWord_whole h1 (by omega)
    exact ⟨⟨_, .whole hw, .inl ⟨.inr (.inr rfl), rfl⟩⟩, .inl ⟨hw, rfl⟩⟩
  · have hw := zihevlaWord_whole h1 (by simpa using hlen)
    have hc : ZCut s x := ⟨hw, h3, h2⟩
    exact ⟨⟨_, .cut hc, .inr ⟨.inr rfl, rfl⟩⟩, .inr ⟨hc, rfl⟩⟩

/-- The components, each with its hyphen. -/
def withHyphens : List (Str × Str) → Str → List (Str × Str)
  | [], z => [(z, [])]
  | (x, h) :: l, z => (x, hyphenTo h (firstOf l z)) :: withHyphens l z

theorem withHyphens_spell : ∀ (l : List (Str × Str)) (z : Str), spell (withHyphens l z) = (joinY l z).flatten
  | [], z => by simp [withHyphens, joinY, spell]
  | (x, h) :: l, z => by
    have ih := withHyphens_spell l z
    unfold spell at ih ⊢
    simp only [withHyphens, joinY, List.map_cons, List.flatten_cons, ih, List.append_assoc]

theorem withHyphens_flat : ∀ {l : List (Str × Str)} {z : Str}, (∀ p ∈ l, p.2 ≠ []) → flat (withHyphens l z) = joinY l z
  | [], z, _ => rfl
  | (x, h) :: l, z, hh => by
    have h0 : h ≠ [] := hh (x, h) (by simp)
    have := withHyphens_flat (l := l) (z := z) (fun p hp => hh p (List.mem_cons_of_mem _ hp))
    rw [withHyphens, joinY, flat_hyphen (by simp [hyphenTo, h0]), this]

theorem withHyphens_cons (l : List (Str × Str)) (z : Str) : ∃ g t, withHyphens l z = (firstOf l z, g) :: t := by
  cases l with
  | nil => exact ⟨_, _, rfl⟩
  | cons p l => exact ⟨_, _, rfl⟩

theorem hyphenTo_lead (h x : Str) : hyphenTo h x = h ++ (if leadB x then s%"'" else []) := by
  unfold hyphenTo leadB
  by_cases hv : VowelInitial x ∧ ¬ Onglide x <;> simp [hv]

theorem joined_step {s : Settings} {f : Bool} {x h z : Str} {l : List (Str × Str)} {p : YPart} {ps : List YPart} (hu : SepUnit s x h)
    (hg : Glued s false (withHyphens l z) (p :: ps)) (hl : p.lead = leadB (firstOf l z)) :
    ∃ q, Glued s f (withHyphens ((x, h) :: l) z) (q :: p :: ps) ∧ q.lead = (!f && leadB x) := by
  obtain ⟨k, hu, hs⟩ := hu
  obtain ⟨q, hq, hc, hp, hh, hlead⟩ := sep_part f hu hs
  refine ⟨q, ?_, hlead⟩
  obtain ⟨g, t, e⟩ := withHyphens_cons l z
  rw [withHyphens, hyphenTo_lead, hh, ← hl]
  rw [e] at hg ⊢
  exact .sep hq hc hp hg

theorem joined_glued {s : Settings} : ∀ {l : List (Str × Str)} {z : Str}, (∀ p ∈ l, SepUnit s p.1 p.2) → EndUnit s z →
    ∃ p ps, Glued s false (withHyphens l z) (p :: ps) ∧ p.lead = leadB (firstOf l z)
  | [], z, _, hz => by
    rcases hz with ⟨h1, h2, h3⟩ | hz
    · exact ⟨_, _, .last h1 h2 h3, (leadB_rafsi h1).symm⟩
    · exact ⟨_, _, .zlast hz, rfl⟩
  | (x, h) :: l, z, hu, hz => by
    obtain ⟨p, ps, hg, hl⟩ := joined_glued (l := l) (fun p hp => hu p (List.mem_cons_of_mem _ hp)) hz
    obtain ⟨q, hq, he⟩ := joined_step (f := false) (hu (x, h) (by simp)) hg hl
    exact ⟨q, _, hq, by simpa [firstOf] using he⟩

/-- Components joined by y are taken apart where they were joined. -/
theorem joined_word {s : Settings} {x h z : Str} {l : List (Str × Str)} (hx : SepUnit s x h) (hl : ∀ p ∈ l, SepUnit s p.1 p.2) (hz : EndUnit s z)
    (hccv : pattern x ≠ s%"CCV") (hvv : VowelRafsi x → s.yHyphens ≠ .standard) (hno : (∃ p ∈ (x, h) :: l, ¬ VowelRafsi p.1) ∨ ¬ VowelRafsi z)
    (hsl : NotSlinkuhi s.yHyphens s.allowMz (joinY ((x, h) :: l) z).flatten) (hlen : (joinY ((x, h) :: l) z).flatten.length < 10 ^ 94) :
    ∃ t, (t = .lujvo ∨ t = .extendedLujvo) ∧ analyseBrivla .linked s (joinY ((x, h) :: l) z).flatten = .ok (t, joinY ((x, h) :: l) z) := by
  have hne : ∀ {x h : Str}, SepUnit s x h → h ≠ [] := by
    rintro x h ⟨k, -, ⟨-, rfl⟩ | ⟨-, rfl⟩⟩ <;> simp
  obtain ⟨p, ps, hg, hlead⟩ := joined_glued hl hz
  obtain ⟨q, hq, -⟩ := joined_step (f := true) hx hg hlead
  have hh : hyphenTo h (firstOf l z) ≠ [] := by simp [hyphenTo, hne hx]
  have hnv : ∃ q ∈ withHyphens ((x, h) :: l) z, ¬ VowelRafsi q.1 := by
    have mem : ∀ (l : List (Str × Str)) (z : Str), ((∃ p ∈ l, ¬ VowelRafsi p.1) ∨ ¬ VowelRafsi z) → ∃ q ∈ withHyphens l z, ¬ VowelRafsi q.1 := by
      intro l
      induction l with
      | nil =>
        rintro z (⟨p, hp, -⟩ | h)
        · cases hp
        · exact ⟨(z, []), by simp [withHyphens], h⟩
      | cons a l ih =>
        obtain ⟨x, h⟩ := a
        intro z h
        by_cases hv : VowelRafsi x
        · obtain ⟨q, hq, hn⟩ := ih z (h.imp (fun ⟨p, hp, hn⟩ => by
            rcases List.mem_cons.1 hp with rfl | hp
            · exact absurd hv hn
            · exact ⟨p, hp, hn⟩) id)
          exact ⟨q, List.mem_cons_of_mem _ hq, hn⟩
        · exact ⟨_, List.mem_cons_self, hv⟩
    exact mem _ _ hno
  have hvl : ∃ c, (spell (withHyphens ((x, h) :: l) z)).getLast? = some c ∧ Vowel c := by
    have hzv : ∃ c, z.getLast? = some c ∧ Vowel c := by
      rcases hz with ⟨-, -, h⟩ | h
      · exact h
      · exact h.form.vowel
    obtain ⟨c, hc, hv⟩ := hzv
    refine ⟨c, ?_, hv⟩
    rw [withHyphens_spell]
    have : ∀ (l : List (Str × Str)), (joinY l z).flatten.getLast? = some c := by
      intro l
      induction l with
      | nil => simpa [joinY] using hc
      | cons a l ih => simp [joinY, List.getLast?_append, ih]
    exact this _
  have hhd : ∃ c, (spell (withHyphens ((x, h) :: l) z)).head? = some c ∧ (Vowel c ∨ Consonant c) := by
    obtain ⟨k, hu, -⟩ := hx
    obtain ⟨c, t, rfl, hc⟩ : ∃ c t, x = c :: t ∧ (Vowel c ∨ Consonant c) := by
      cases hu with
      | rafsi hr _ =>
        obtain ⟨a, t, rfl, ha⟩ := rafsi_first hr
        exact ⟨a, t, rfl, .inr ((isConsonant_iff a).1 ha)⟩
      | whole hz =>
        cases x with
        | nil => obtain ⟨c, hc, -⟩ := hz.form.vowel; cases hc
        | cons a t => exact ⟨a, t, rfl, sounds_firstLetter hz.form.sounds⟩
      | cut hz =>
        cases x with
        | nil => exact absurd rfl (zcut_ne hz)
        | cons a t => exact ⟨a, t, rfl, sounds_firstLetter (u := t ++ s%"a") hz.whole.form.sounds⟩
    exact ⟨c, by rw [withHyphens_spell]; simp [joinY], hc⟩
  have hb : (10 : Nat) ^ 95 = 10 * 10 ^ 94 := by rw [Nat.pow_succ, Nat.mul_comm]
  have := glued_word hq ⟨?_, ?_, ?_, ?_⟩ ?_ ?_ (by rwa [withHyphens_spell])
  · rwa [withHyphens_spell, withHyphens_flat (fun p hp => by
      rcases List.mem_cons.1 hp with rfl | hp
      · exact hne hx
      · exact hne (hl p hp))] at this
  · intro x0 x' g' t e
    rw [withHyphens] at e
    exact absurd (Prod.mk.inj (List.cons.inj e).1).2 hh
  · intro x0 t e hv
    rw [withHyphens] at e
    generalize hyphenTo h (firstOf l z) = g at e
    cases e
    exact hvv hv
  · intro x0 g t e hp
    rw [withHyphens] at e
    cases e
    exact absurd hp hccv
  · intro h
    obtain ⟨q, hq, hn⟩ := hnv
    exact absurd (h q hq).1 hn
  · intro ht
    obtain ⟨x0, x', g', t, e, -⟩ := tosmG_inv ht
    rw [withHyphens] at e
    exact absurd (Prod.mk.inj (List.cons.inj e).1).2 hh
  · refine (slinkuhi_word_iff hvl hhd ?_).2 (by rwa [withHyphens_spell])
    rw [withHyphens_spell]; omega

/-- Rafsi between two y. -/
theorem between_y {y : YHyphens} {mz : Bool} {u v t : List Str} (h : Reading y mz (u ++ v ++ s%"y" :: t)) (hu : ∀ p, u.getLast? = some p → p ∈ [s%"y", s%"'y"])
    (hv : v ≠ []) (hno : 'y' ∉ v.flatten) : Reading y mz v := by
  obtain ⟨v', p, rfl⟩ : ∃ a z, v = a ++ [z] := ⟨_, _, (List.dropLast_concat_getLast hv).symm⟩
  have hyy : Hyphen s%"y" := by decide
  have hp : Rafsi mz p := by
    have hlk := h.links (u ++ v') p s%"y" t (by simp)
    cases hlk with
    | rafsi h => exact h
    | y h => exact h
    | rOrN _ h => exact h
    | afterY _ h => exact absurd hyy (rafsi_not_hyphen h)
    | afterR h => exact absurd hyy (rafsi_not_hyphen h)
    | afterN h => exact absurd hyy (rafsi_not_hyphen h)
  refine ⟨?_, ⟨p, by simp, hp⟩, ?_, ?_, ?_⟩
  · cases hx : v' ++ [p] with
    | nil => simp at hx
    | cons a w =>
      refine ⟨a, rfl, ?_⟩
      rcases List.eq_nil_or_concat u with rfl | ⟨u, q, rfl⟩
      · obtain ⟨r, hr, hrr⟩ := h.first
        rw [hx] at hr
        cases hr
        exact hrr
      · have hlk := h.links u q a (w ++ s%"y" :: t) (by rw [hx]; simp)
        have hq := hu q (by simp)
        have hqh : Hyphen q := by
          simp only [List.mem_cons, List.not_mem_nil, or_false] at hq
          rcases hq with rfl | rfl <;> decide
        cases hlk with
        | rafsi h => exact absurd hqh (rafsi_not_hyphen h)
        | y h => exact absurd hqh (rafsi_not_hyphen h)
        | apostropheY _ h => exact absurd hqh (rafsi_not_hyphen h)
        | rOrN _ h => exact absurd hqh (rafsi_not_hyphen h)
        | afterY _ h => exact h
        | afterR h => exact h
        | afterN h => exact h
  · intro q hq
    exact h.diphthongs q (by simp at hq ⊢; rcases hq with h | h <;> simp [h])
  · intro a q r b e
    exact h.links (u ++ a) q r (b ++ s%"y" :: t) (by rw [e]; simp)
  · intro a b c w _ e
    rw [e] at hno
    simp at hno

/-- The last piece behind a y. -/
theorem after_y {y : YHyphens} {mz : Bool} {u v : List Str} (h : Reading y mz (u ++ v)) (hu : ∃ p, u.getLast? = some p ∧ p ∈ [s%"y", s%"'y"])
    (hno : 'y' ∉ v.flatten) : Reading y mz v := by
  obtain ⟨q, hq, hqh⟩ := hu
  obtain ⟨u, rfl⟩ : ∃ a, u = a ++ [q] := List.getLast?_eq_some_iff.1 hq
  have hqh' : Hyphen q := by
    simp only [List.mem_cons, List.not_mem_nil, or_false] at hqh
    rcases hqh with rfl | rfl <;> decide
  obtain ⟨r, hr, hrr⟩ := h.last
  cases v with
  | nil =>
    simp at hr
    subst hr
    exact absurd hqh' (rafsi_not_hyphen hrr)
  | cons a v =>
    refine ⟨⟨a, rfl, ?_⟩, ⟨r, ?_, hrr⟩, ?_, ?_, ?_⟩
    · have hlk := h.links u q a v (by simp)
      cases hlk with
      | rafsi h' => exact absurd hqh' (rafsi_not_hyphen h')
      | y h' => exact absurd hqh' (rafsi_not_hyphen h')
      | apostropheY _ h' => exact absurd hqh' (rafsi_not_hyphen h')
      | rOrN _ h' => exact absurd hqh' (rafsi_not_hyphen h')
      | afterY _ h => exact h
      | afterR h => exact h
      | afterN h => exact h
    · rw [List.getLast?_append] at hr
      cases hg : (a :: v).getLast? with
      | none => simp at hg
      | some w => rw [hg] at hr; simpa using hr
    · intro q hq
      exact h.diphthongs q (List.mem_append_right _ hq)
    · intro x p q' w e
      exact h.links (u ++ [q] ++ x) p q' w (by rw [e]; simp)
    · intro x b c w _ e
      rw [e] at hno
      simp at hno

theorem rafsi_short_vowel {mz : Bool} {p : Str} {c : Char} (h : Rafsi mz p) (h5 : p.length < 5) (hc : p.getLast? = some c) (hv : Vowel c) : Short p := by
  have hn := vowel_not_consonant hv
  cases h with
  | cvv => exact .inl rfl
  | cvhv => exact .inr ⟨rfl, by simp⟩
  | cvc => exact .inl rfl
  | ccv => exact .inl rfl
  | cvcc _ _ h => cases hc; exact absurd h.2.1 hn
  | ccvc _ _ h => cases hc; exact absurd h hn
  | gismu hg => cases hg <;> simp at h5

/-- A word with a whole zi'evla before 'y is no slinku'i. -/
theorem notSlinkuhi_apostrophe {s : Settings} {w A t : Str} (hw : w = A ++ s%"'" ++ 'y' :: t) : NotSlinkuhi s.yHyphens s.allowMz w := by
  intro hc qs hq e
  exact (slinkuhi_y hq hc e hw).1 (by simp)

/-- Nor is one that ends in something unreadable, -/
theorem notSlinkuhi_end {s : Settings} {w A z : Str} (hw : w = A ++ 'y' :: z) (hz : Unreadable s z) : NotSlinkuhi s.yHyphens s.allowMz w := by
  intro hc qs hq e
  obtain ⟨-, v, hv, hf⟩ := slinkuhi_y hq hc e hw
  exact hz v hv hf

/-- nor one with something between two y that cannot be read, or ends in a vowel. -/
theorem notSlinkuhi_between {s : Settings} {w A x t : Str} (hw : w = A ++ 'y' :: (x ++ 'y' :: t)) (hx : 'y' ∉ x) (hne : x ≠ [])
    (hz : (∃ c, x.getLast? = some c ∧ Consonant c) → Unreadable s x) : NotSlinkuhi s.yHyphens s.allowMz w := by
  intro hc qs hq e
  have hR := hq.reading
  have hp := reading_pieces' hR
  obtain ⟨u, h1, v, rfl, hu, hv⟩ := piece_at_y (A := s%"to" ++ A) (t := x ++ 'y' :: t) hp (by rw [e, hw]; simp)
  obtain ⟨u2, h2, v2, rfl, hu2, hv2⟩ := piece_at_y (A := x) (t := t) (fun q hq => hp q (by simp [hq])) hv
  have h1y : h1 ∈ [s%"y", s%"'y"] := by rcases hu with ⟨rfl, -⟩ | ⟨rfl, -⟩ <;> simp
  rcases hu2 with ⟨rfl, hu2⟩ | ⟨rfl, hu2⟩
  · have hune : u2 ≠ [] := by
      rintro rfl
      exact hne (by simpa using hu2.symm)
    have hR2 : Reading s.yHyphens s.allowMz u2 := by
      refine between_y (u := u ++ [h1]) (t := v2) ?_ ?_ hune (by rw [hu2]; exact hx)
      · simpa using hR
      · intro p hp
        simp at hp
        subst hp
        exact h1y
    refine hz ?_ u2 hR2 hu2
    obtain ⟨u', p, rfl⟩ : ∃ a z, u2 = a ++ [z] := ⟨_, _, (List.dropLast_concat_getLast hune).symm⟩
    obtain ⟨r, hr, hpr⟩ := hR2.last
    simp at hr
    subst hr
    obtain ⟨q, v3, rfl⟩ : ∃ q b, v2 = q :: b := by
      cases v2 with
      | nil =>
        obtain ⟨r, hr, hrr⟩ := hR.last
        rw [show u ++ h1 :: (u' ++ [p] ++ [s%"y"]) = u ++ h1 :: (u' ++ [p]) ++ [s%"y"] by simp, List.getLast?_concat] at hr
        cases hr
        exact absurd (by decide) (rafsi_not_hyphen hrr)
      | cons q v => exact ⟨q, v, rfl⟩
    obtain ⟨c, hcl, hcv⟩ := rafsi_lastLetter hpr
    have hxl : x.getLast? = some c := by
      rw [← hu2]
      simp [List.getLast?_append, hcl]
    rcases hcv with hcv | hcv
    · exfalso
      rcases hq.y (u ++ h1 :: u') p q v3 (by simp) with h | ⟨h, -⟩
      · apply h
        refine ⟨?_, ?_, ?_⟩
        · have hlk := hR.links (u ++ h1 :: u') p s%"y" (q :: v3) (by simp)
          generalize hy : s%"y" = y0 at hlk
          have h5 : p.length < 5 := by
            cases hlk with
            | rafsi _ h => subst hy; exact absurd (by decide) (rafsi_not_hyphen h)
            | y _ h => exact h
            | apostropheY => cases hy
            | rOrN _ _ _ h => subst hy; exact absurd h (by decide)
            | afterY _ h => subst hy; exact absurd (by decide) (rafsi_not_hyphen h)
            | afterR h => subst hy; exact absurd (by decide) (rafsi_not_hyphen h)
            | afterN h => subst hy; exact absurd (by decide) (rafsi_not_hyphen h)
          exact rafsi_short_vowel hpr h5 hcl hcv
        · intro c' d hc' _ hcc
          rw [hcl] at hc'
          cases hc'
          exact absurd hcc (vowel_not_consonant hcv)
        · intro c' d e' t' hc' _ hm
          rw [hcl] at hc'
          cases hc'
          exact vowel_banned hcv hm
      · simp at h
    · exact ⟨c, hxl, hcv⟩
  · obtain ⟨q, v3, rfl⟩ : ∃ q b, v2 = q :: b := by
      cases v2 with
      | nil =>
        obtain ⟨r, hr, hrr⟩ := hR.last
        rw [show u ++ h1 :: (u2 ++ [s%"'y"]) = u ++ h1 :: u2 ++ [s%"'y"] by simp, List.getLast?_concat] at hr
        cases hr
        exact absurd (by decide) (rafsi_not_hyphen hrr)
      | cons q v => exact ⟨q, v, rfl⟩
    rcases List.eq_nil_or_concat u2 with rfl | ⟨u', p, rfl⟩
    · obtain ⟨-, -, ⟨c, a, b, -, -, h | h⟩, -⟩ := hq.apostropheY u h1 q v3 (by simp)
      all_goals
        rw [h] at h1y
        simp at h1y
    · obtain ⟨-, h, -⟩ := hq.apostropheY (u ++ h1 :: u') p q v3 (by simp)
      simp at h

theorem joinY_at {x0 h0 z : Str} {p : Str × Str} {l2 : List (Str × Str)} (hy : ∃ a, h0 = a ++ s%"y") : ∀ (l1 : List (Str × Str)), (∀ q ∈ l1, ∃ a, q.2 = a ++ s%"y") →
    ∃ A t, (joinY ((x0, h0) :: l1 ++ p :: l2) z).flatten = A ++ 'y' :: ((if leadB p.1 then s%"'" else []) ++ p.1 ++ p.2 ++ t) := by
  intro l1
  induction l1 generalizing x0 h0 with
  | nil =>
    intro _
    obtain ⟨a, rfl⟩ := hy
    obtain ⟨x, h⟩ := p
    refine ⟨x0 ++ a, (if leadB (firstOf l2 z) then s%"'" else []) ++ (joinY l2 z).flatten, ?_⟩
    simp only [List.cons_append, List.nil_append, joinY, hyphenTo_lead, firstOf, List.flatten_cons, List.append_assoc]
    rfl
  | cons q l1 ih =>
    obtain ⟨x1, h1⟩ := q
    intro hq
    obtain ⟨A, t, e⟩ := ih (x0 := x1) (h0 := h1) (hq (x1, h1) (by simp)) (fun q h => hq q (List.mem_cons_of_mem _ h))
    refine ⟨x0 ++ hyphenTo h0 x1 ++ A, t, ?_⟩
    rw [List.cons_append, joinY, List.flatten_cons, List.flatten_cons]
    rw [show (x1, h1) :: l1 ++ p :: l2 = (x1, h1) :: (l1 ++ p :: l2) from rfl] at e
    rw [show joinY ((x1, h1) :: l1 ++ p :: l2) z = joinY ((x1, h1) :: (l1 ++ p :: l2)) z from rfl, e]
    simp [firstOf]

theorem joinY_end {x0 h0 z : Str} (hy : ∃ a, h0 = a ++ s%"y") : ∀ (l : List (Str × Str)), (∀ q ∈ l, ∃ a, q.2 = a ++ s%"y") →
    ∃ A, (joinY ((x0, h0) :: l) z).flatten = A ++ 'y' :: ((if leadB z then s%"'" else []) ++ z) := by
  intro l
  induction l generalizing x0 h0 with
  | nil =>
    intro _
    obtain ⟨a, rfl⟩ := hy
    exact ⟨x0 ++ a, by simp [joinY, hyphenTo_lead, firstOf]⟩
  | cons q l ih =>
    obtain ⟨x1, h1⟩ := q
    intro hq
    obtain ⟨A, e⟩ := ih (x0 := x1) (h0 := h1) (hq (x1, h1) (by simp)) (fun q h => hq q (List.mem_cons_of_mem _ h))
    refine ⟨x0 ++ hyphenTo h0 x1 ++ A, ?_⟩
    rw [joinY, List.flatten_cons, List.flatten_cons, e]
    simp [firstOf]

theorem joinY_mem {x h z : Str} {l : List (Str × Str)} (hm : (x, h) ∈ l) : x ∈ joinY l z := by
  induction l with
  | nil => cases hm
  | cons q l ih =>
    obtain ⟨x1, h1⟩ := q
    rcases List.mem_cons.1 hm with e | hm
    · cases e; simp [joinY]
    · simp [joinY, ih hm]

theorem joinY_last {z : Str} (l : List (Str × Str)) : z ∈ joinY l z := by
  induction l with
  | nil => simp [joinY]
  | cons q l ih => obtain ⟨x1, h1⟩ := q; simp [joinY, ih]

theorem flatten_mem_length {x : Str} {l : List Str} (h : x ∈ l) : x.length ≤ l.flatten.length := by
  induction l with
  | nil => cases h
  | cons a l ih =>
    rcases List.mem_cons.1 h with rfl | h
    · simp
    · have := ih h; rw [List.flatten_cons, List.length_append]; omega

theorem before_y_hyphen {s : Settings} {x h : Str} (hb : RafsiBefore s x h ∨ ZihevlaBefore s x h) : ∃ a, h = a ++ s%"y" := by
  rcases hb with ⟨-, ⟨-, rfl⟩ | ⟨-, rfl⟩⟩ | ⟨-, rfl⟩ | ⟨-, -, -, rfl⟩
  · exact ⟨[], rfl⟩
  · exact ⟨s%"'", rfl⟩
  · exact ⟨s%"'", rfl⟩
  · exact ⟨[], rfl⟩

/-- Not readable with an apostrophe before it. -/
theorem unreadable_apostrophe {s : Settings} {x : Str} : Unreadable s (s%"'" ++ x) := by
  intro qs h e
  have := reading_head h
  rw [e] at this
  exact absurd (show Consonant '\'' from this) (by decide)

end Jvotci
