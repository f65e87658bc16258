import Verif.Lemmas.GluedSlots
import Verif.Props.Back
import Verif.SpecTanru

/-!
# Helper lemmas: reading back lujvo with zi'evla in them
-/

namespace Jvotci

open Spec

theorem layout_clean {mz : Bool} {w : Str} {xs : List Str} {ix : List (Nat × Nat)} (h : Layout mz w xs ix) : ∀ x ∈ xs, Clean x := by
  induction h with
  | one h => intro x hx; simp at hx; subst hx; exact h
  | snoc _ _ _ h ih =>
    intro x hx
    rcases List.mem_append.1 hx with hx | hx
    · exact ih x hx
    · simp at hx; subst hx; exact h

theorem clean_asRead {x : Str} (h : Clean x) : AsRead x := fun d hd => readChar_letter (h.letters d hd)

theorem clean_apos {x : Str} (h : Clean x) : x.getLast? ≠ some '\'' := by
  obtain ⟨c, hc, hv⟩ := h.last
  rw [hc]
  rintro ⟨⟩
  rcases hv with h | h <;> revert h <;> decide

theorem experimental_pair {R : Rec} {rz : Bool} {y : YHyphens} {ex mz : Bool} {x : Str} (h : checkZihevlaOrRafsi R rz y ex mz x = .ok .rafsi) :
    ¬ ∃ a b, Adjacent x a b ∧ Consonant a ∧ Consonant b := by
  rintro ⟨a, b, ⟨u, v, rfl⟩, -, hb⟩
  refine checkZihevlaOrRafsi_consonant h b ?_ hb
  cases u with
  | nil => simp
  | cons c u => simp

theorem noMzWord_part {s : Settings} {u x v : Str} (h : NoMzWord s (u ++ x ++ v)) (hd : '-' ∈ u ++ x ++ v) : s.allowMz = false ∨ NoMz x := by
  cases hs : s.allowMz with
  | false => exact .inl rfl
  | true =>
    rcases h hs with h | h
    · rcases rafsi_letters (.gismu h) _ hd with h | h | h <;> exact absurd h (by decide)
    · exact .inr (noMz_mid h)

theorem noMzWord_zihevla {s : Settings} {e : Bool} {v : Str} {ps : List Str} (h : NoMzWord s v) (hr : reading v = v) (hlen : v.length < 10 ^ 94)
    (hw : analyseBrivla .linked { yHyphens := s.yHyphens, expRafsi := e, allowMz := s.allowMz } v = .ok (.zihevla, ps)) :
    s.allowMz = false ∨ NoMz v := by
  cases hs : s.allowMz with
  | false => exact .inl rfl
  | true =>
    rcases h hs with h | h
    · obtain ⟨-, -, hg, -⟩ := (C45_zihevla hlen).1 hw
      rw [hr] at hg
      exact absurd (by simpa [hs] using h) hg
    · exact .inr h

/-- What stands for a component, if it is not an experimental rafsi. -/
theorem usable_unit {s : Settings} {v x : Str} {k : Kind} (hu : Usable .linked s v x k) (hm : NoMzWord s v ∨ NoMz x) (hv : ∀ d ∈ v, readChar d = [d])
    (hx : Clean x) (hlen : x.length + 1 < 10 ^ 94)
    (hp : Dashed v x → (∃ a b, Adjacent x a b ∧ Consonant a ∧ Consonant b) ∨ Rafsi s.allowMz x ∧ Diph x) : UnitOf s x k := by
  have hra := clean_asRead hx
  have hlong : ∀ {x : Str}, 4 ≤ x.length → Diph x := by
    rintro x h c a b rfl
    simp at h
  have hgi : ∀ {x : Str}, Gismu s.allowMz x → UnitOf s x .long := by
    intro x h
    have hr : Rafsi s.allowMz x := .gismu h
    rw [← gismu_long h hr]
    exact .rafsi hr (hlong (by cases h <;> simp))
  have hgc : ∀ {x : Str} {c : Char}, Gismu s.allowMz (x ++ [c]) → UnitOf s x .short := by
    intro x c h
    obtain ⟨h1, h2, h3, -⟩ := gismu_cut h
    rw [← h3]
    exact .rafsi h1 (hlong (by omega))
  have hdp : ∀ {a b : Char}, Adjacent x a b → Consonant a → Consonant b → Diph x := by
    rintro a b h ha hb p q r rfl hq hr
    exfalso
    have hvc : ∀ c, Vowel c → ¬ Consonant c := fun _ => vowel_not_consonant
    simp only [adjacent_cons] at h
    rcases h with ⟨rfl, rfl⟩ | ⟨rfl, rfl⟩ | h
    · exact hvc _ hq hb
    · exact hvc _ hq ha
    · exact adjacent_single h
  cases hu with
  | listed _ h1 h2 h3 =>
    have hr : Rafsi s.allowMz x := rafsi_mono (isValidRafsi_iff.1 (table_shapes _ h1 _ h2).2)
    rw [(kindOf_iff hr).1 h3]
    exact .rafsi hr (table_diph h1 h2)
  | @stem _ c _ hw e =>
    obtain ⟨ps, hw⟩ := hw
    obtain ⟨-, hg, -⟩ := C03_gismu_iff.1 hw
    subst e
    have hr : reading (x ++ [c]) = x ++ [c] := by
      have hf := flatMap_readChar_stable hv
      unfold reading
      split
      · rename_i cs e
        exfalso
        obtain ⟨d, hd, hdl⟩ := hx.first
        have : (x ++ [c]).head? = some '.' := by rw [e]; rfl
        rw [head_append hx.ne, hd] at this
        cases this
        rcases hdl with h | h <;> revert h <;> decide
      · exact hf
    rw [hr] at hg
    exact hgc hg
  | word _ hw =>
    rcases hw with ⟨ps, hw⟩ | ⟨ps, hw⟩
    · obtain ⟨-, hg, -⟩ := C03_gismu_iff.1 hw
      rw [reading_asRead hra] at hg
      exact hgi hg
    · exact .whole (zwhole_of (hm.elim (fun hm => noMzWord_zihevla hm (reading_asRead hra) (by omega) hw) .inr) hra (by omega) hw)
  | rafsi hd hr hk =>
    rw [(kindOf_iff hr).1 hk]
    rcases hp hd with ⟨a, b, h1, h2, h3⟩ | ⟨-, h⟩
    · exact .rafsi hr (hdp h1 h2 h3)
    · exact .rafsi hr h
  | zihevla hd _ hw =>
    obtain ⟨ps, hw⟩ := hw
    obtain ⟨-, i, j, e⟩ := hd
    exact .whole (zwhole_of (hm.elim (fun hm => noMzWord_part (e ▸ hm) (by simp)) .inr) hra (by omega) hw)
  | experimental hd h0 _ _ hz =>
    exfalso
    rcases hp hd with h | ⟨h, -⟩
    · exact experimental_pair hz h
    · exact shape_rafsi h0 h
  | @cut _ j e _ hw hj =>
    have hm' : s.allowMz = false ∨ NoMz x :=
      hm.elim (fun hm => noMzWord_part (u := []) (v := List.replicate (j + 1) '-') (by rw [e] at hm; exact hm) (by simp)) .inr
    rcases hw with ⟨ps, hw⟩ | ⟨ps, hw⟩
    · obtain ⟨-, hg, -⟩ := C03_gismu_iff.1 hw
      have hra' : AsRead (x ++ s%"a") := by
        intro d hd
        rcases List.mem_append.1 hd with hd | hd
        · exact hra d hd
        · simp at hd
          subst hd
          decide
      rw [reading_asRead hra'] at hg
      exact hgc hg
    · exact .cut (zcut_of hm' hra hlen hw (clean_apos hx) hj)

theorem placed_of {b : Build} {s : Settings} {n : Nat} : ∀ {vs : List Str} {i : Nat} {zs : List Slot}, Represents b s n i vs zs → i + vs.length = n → i ≠ 0 →
    (∀ z ∈ zs, UnitOf s z.rafsi z.kind) → (∀ y z, Beside zs y z → Joint s.allowMz y z) → zs ≠ [] → Placed s zs
  | _, _, _, .nil, _, _, _, _, hne => absurd rfl hne
  | _, i, _, .cons (z := z) (zs := zs) _ hw h, hn, hi, hu, hj, _ => by
    have hi' : (i == 0) = false := by simpa using hi
    rw [hi'] at hw
    have hl := represents_length h
    cases zs with
    | nil =>
      simp at hl
      simp only [List.length_cons] at hn
      have : (i + 1 == n) = true := by simp; omega
      rw [this] at hw
      exact .one (hu z (by simp)) hw
    | cons z' zs =>
      simp only [List.length_cons] at hn hl
      have : (i + 1 == n) = false := by simp; omega
      rw [this] at hw
      refine .cons (hu z (by simp)) hw (hj z z' ⟨[], zs, rfl⟩) (placed_of h (by omega) (by omega) (fun y hy => hu y (List.mem_cons_of_mem _ hy)) ?_ (by simp))
      rintro p q ⟨u, v, e⟩
      exact hj p q ⟨z :: u, v, by rw [e]; rfl⟩

/-! ## The places -/

theorem unit_vowel {s : Settings} {x : Str} {k : Kind} (h : UnitOf s x k) : ∃ c ∈ x, Vowel c := by
  cases h with
  | rafsi h _ =>
    have hk := rafsi_rk h
    generalize kindOf x = k at hk
    cases hk with
    | cvv _ hw => exact ⟨_, List.mem_cons_of_mem _ (List.mem_cons_self ..), hw⟩
    | cvhv _ hw => exact ⟨_, List.mem_cons_of_mem _ (List.mem_cons_self ..), hw⟩
    | cvc _ hw => exact ⟨_, List.mem_cons_of_mem _ (List.mem_cons_self ..), hw⟩
    | ccv _ hw => exact ⟨_, List.mem_cons_of_mem _ (List.mem_cons_of_mem _ (List.mem_cons_self ..)), hw⟩
    | cvcc _ hw => exact ⟨_, List.mem_cons_of_mem _ (List.mem_cons_self ..), hw⟩
    | ccvc _ hw => exact ⟨_, List.mem_cons_of_mem _ (List.mem_cons_of_mem _ (List.mem_cons_self ..)), hw⟩
    | cvccv _ hw => exact ⟨_, List.mem_cons_of_mem _ (List.mem_cons_self ..), hw⟩
    | ccvcv _ hw => exact ⟨_, List.mem_cons_of_mem _ (List.mem_cons_of_mem _ (List.mem_cons_self ..)), hw⟩
  | whole h =>
    obtain ⟨c, hc, hv⟩ := h.form.vowel
    exact ⟨c, List.mem_of_getLast? hc, hv⟩
  | cut h =>
    obtain ⟨n, hs, h2⟩ := h.whole.form.syllables
    have := syllables_vowels hs
    rw [vowelCount_append] at this
    have ha : vowelCount s%"a" = 1 := by decide
    have hpos : 0 < vowelCount x := by omega
    unfold vowelCount at hpos
    obtain ⟨c, hc⟩ := List.exists_mem_of_length_pos hpos
    rw [List.mem_filter] at hc
    exact ⟨c, hc.1, by simpa using hc.2⟩

/-- What stands before a unit is read off the word. -/
theorem gap_unique_clean {g g' x t t' : Str} (hg : Gap g) (hg' : Gap g') (hx : Clean x) (hv : ∃ c ∈ x, Vowel c) (e : g ++ x ++ t = g' ++ x ++ t') :
    g = g' := by
  have hh : ∀ {g : Str}, Gap g → g ∈ [[], s%"r", s%"n", s%"y", s%"'y", s%"y'", s%"'y'"] := by
    rintro g (rfl | h)
    · simp
    · exact List.mem_cons_of_mem _ h
  have h1 := hh hg
  have h2 := hh hg'
  obtain ⟨d, hd, hdl⟩ := hx.first
  have hdy : d ≠ 'y' ∧ d ≠ '\'' := by
    constructor <;> rintro rfl <;> rcases hdl with h | h <;> revert h <;> decide
  have hall : ∀ (c : Char) (x t t' : Str), x ++ t = c :: x ++ t' → ∀ d ∈ x, d = c := by
    intro c x
    induction x with
    | nil => simp
    | cons a x ih =>
      intro t t' e d hd
      simp only [List.cons_append, List.cons.injEq] at e
      obtain ⟨rfl, e⟩ := e
      rcases List.mem_cons.1 hd with rfl | hd
      · rfl
      · exact ih t t' (by simpa using e) d hd
  obtain ⟨c, hc, hcv⟩ := hv
  have hrn : ∀ c', (c' = 'r' ∨ c' = 'n') → ∀ t t', x ++ t ≠ c' :: x ++ t' := by
    intro c' h' t t' e
    have := hall c' x t t' e c hc
    rw [this] at hcv
    rcases h' with rfl | rfl <;> revert hcv <;> decide
  cases x with
  | nil => cases hd
  | cons a x =>
    simp only [List.head?_cons, Option.some.injEq] at hd
    subst hd
    have hr := fun t t' => hrn 'r' (.inl rfl) t t'
    have hn := fun t t' => hrn 'n' (.inr rfl) t t'
    simp only [List.mem_cons, List.not_mem_nil, or_false] at h1 h2
    rcases h1 with rfl | rfl | rfl | rfl | rfl | rfl | rfl <;> rcases h2 with rfl | rfl | rfl | rfl | rfl | rfl | rfl <;>
      first
      | rfl
      | (exfalso; exact hr _ _ e)
      | (exfalso; exact hn _ _ e)
      | (exfalso; exact hr _ _ e.symm)
      | (exfalso; exact hn _ _ e.symm)
      | (exfalso; simp at e <;> grind)

theorem gaps_unique_clean {z z' : Str} : ∀ {u u' : List (Str × Str)}, (u ++ [(z, [])]).map Prod.fst = (u' ++ [(z', [])]).map Prod.fst →
    (∀ x ∈ (u ++ [(z, [])]).map Prod.fst, Clean x ∧ ∃ c ∈ x, Vowel c) → (∀ p ∈ u, Gap p.2) → (∀ p ∈ u', Gap p.2) →
    spell (u ++ [(z, [])]) = spell (u' ++ [(z', [])]) → u = u' ∧ z = z'
  | [], [], e, _, _, _, _ => by simpa using e
  | [], _ :: _, e, _, _, _, _ => by simp at e
  | _ :: _, [], e, _, _, _, _ => by simp at e
  | (x, h) :: u, (x', h') :: u', e, hr, hg, hg', es => by
    simp only [List.cons_append, List.map_cons, List.cons.injEq] at e
    obtain ⟨rfl, e⟩ := e
    simp only [List.cons_append, spell_cons, List.append_cancel_left_eq] at es
    have hr' : ∀ x ∈ (u ++ [(z, [])]).map Prod.fst, Clean x ∧ ∃ c ∈ x, Vowel c := fun y hy => hr y (by simp only [List.cons_append, List.map_cons]; exact List.mem_cons_of_mem _ hy)
    have key : ∀ (v : List (Str × Str)) z, ∃ y k t, v ++ [(z, [])] = (y, k) :: t := by
      intro v z
      cases v with
      | nil => exact ⟨_, _, _, rfl⟩
      | cons p v => exact ⟨p.1, p.2, _, rfl⟩
    have hh : h = h' := by
      obtain ⟨y, k, t, e1⟩ := key u z
      obtain ⟨y', k', t', e2⟩ := key u' z'
      rw [e1, e2] at e es
      rw [e1] at hr'
      simp only [List.map_cons, List.cons.injEq] at e
      obtain ⟨rfl, -⟩ := e
      simp only [spell_cons] at es
      refine gap_unique_clean (x := y) (t := k ++ spell t) (t' := k' ++ spell t') (hg (x, h) (by simp)) (hg' (x, h') (by simp)) (hr' y (by simp)).1 (hr' y (by simp)).2 ?_
      simpa [List.append_assoc] using es
    subst hh
    obtain ⟨e1, e2⟩ := gaps_unique_clean e hr' (fun p hp => hg p (List.mem_cons_of_mem _ hp)) (fun p hp => hg' p (List.mem_cons_of_mem _ hp))
      (List.append_cancel_left es)
    rw [e1, e2]
    exact ⟨rfl, rfl⟩

theorem glued_gaps {s : Settings} {f : Bool} {l : List (Str × Str)} {ps : List YPart} (h : Glued s f l ps) :
    ∃ u z, l = u ++ [(z, [])] ∧ ∀ p ∈ u, Gap p.2 := by
  induction h with
  | last => exact ⟨[], _, rfl, by simp⟩
  | zlast => exact ⟨[], _, rfl, by simp⟩
  | bare _ _ _ _ _ ih =>
    obtain ⟨u, z, e, h⟩ := ih
    refine ⟨_ :: u, z, by rw [e]; rfl, ?_⟩
    intro p hp
    rcases List.mem_cons.1 hp with rfl | hp
    · exact .inl rfl
    · exact h p hp
  | rn _ _ _ hg _ _ _ _ ih =>
    obtain ⟨u, z, e, h⟩ := ih
    refine ⟨_ :: u, z, by rw [e]; rfl, ?_⟩
    intro p hp
    rcases List.mem_cons.1 hp with rfl | hp
    · simp at hg
      rcases hg with rfl | rfl <;> dsimp only <;> decide
    · exact h p hp
  | @sep f x x' g' l q p ps _ _ _ _ ih =>
    obtain ⟨u, z, e, h⟩ := ih
    refine ⟨_ :: u, z, by rw [e]; rfl, ?_⟩
    intro r hr
    rcases List.mem_cons.1 hr with rfl | hr
    · dsimp only
      cases q.trail <;> cases p.lead <;> decide
    · exact h r hr

/-- `get_rafsi_indices` of the pieces. -/
theorem indices_clean : ∀ {l : List (Str × Str)} {n : Nat}, (∀ p ∈ l, (Clean p.1 ∧ ∃ c ∈ p.1, Vowel c) ∧ Gap p.2) →
    rafsiIndicesFrom n (flat l) = places n l
  | [], _, _ => rfl
  | (x, h) :: l, n, hr => by
    obtain ⟨⟨hx, c, hc, hcv⟩, hg⟩ := hr (x, h) (by simp)
    have hxh : HYPHENS.contains x = false := by
      cases hh : HYPHENS.contains x with
      | false => rfl
      | true =>
        exfalso
        rw [List.contains_iff_mem] at hh
        have key : ∀ x ∈ HYPHENS, ∀ c ∈ x, ¬ Vowel c := by decide
        exact key x hh c hc hcv
    have ih := fun n => indices_clean (l := l) (n := n) (fun p hp => hr p (List.mem_cons_of_mem _ hp))
    by_cases hn : h = []
    · subst hn
      rw [flat_bare]
      simp only [rafsiIndicesFrom, hxh, Bool.false_eq_true, if_false, places, ih]
      simp
    · rw [flat_hyphen hn]
      have hhh : HYPHENS.contains h = true := by
        rw [List.contains_iff_mem]; exact hg.resolve_left hn
      simp only [rafsiIndicesFrom, hxh, hhh, Bool.false_eq_true, if_false, if_true, places, ih]

/-! ## The word found -/

theorem found_slinkuhi {s : Settings} {vs : List Str} {r : Str × Int × List (Nat × Nat)}
    (h : getLujvoFromList (program .linked) s false vs = .ok r) : isSlinkuhi (program .linked) s.yHyphens s.allowMz r.1 = .ok false := by
  obtain ⟨ll, rs, c, l, -, -, -, -, -, -, -, rfl, hs⟩ := getLujvoFromList_ok h
  have hs := hs rfl
  unfold slinkuhiInJvozba at hs
  rw [← slinkuhi_program]
  exact hs

theorem glued_back {s : Settings} {vs : List Str} {w : Str} {sc : Int} {ix : List (Nat × Nat)} {zs : List Slot} {hy : Str}
    (h : getLujvoFromList (program .linked) s false vs = .ok (w, sc, ix)) (hrep : Represents .linked s vs.length 0 vs zs)
    (hL : Legal s false zs hy) (hw : w = wordOf zs hy) (hlay : Layout s.allowMz w (zs.map Slot.rafsi) ix)
    (hu : ∀ z ∈ zs, UnitOf s z.rafsi z.kind) (hlen : w.length < 10 ^ 94) :
    ∃ l t, (t = .lujvo ∨ t = .extendedLujvo) ∧ analyseBrivla .linked s w = .ok (t, flat l) ∧ getRafsiIndices (flat l) = ix ∧
      (∀ p ∈ l, (Clean p.1 ∧ ∃ c ∈ p.1, Vowel c) ∧ Gap p.2) ∧ Gaps false zs l := by
  obtain ⟨y, z, rest, rfl, -⟩ := hL.first
  have hclean := layout_clean hlay
  cases hrep with
  | @cons _ v vs _ _ _ hwr hrep =>
    have hrl := represents_length hrep
    have hP := placed_of hrep (by simp; omega) (by simp) (fun x hx => hu x (List.mem_cons_of_mem _ hx))
      (fun p q ⟨u, v, e⟩ => hL.joints p q ⟨y :: u, v, by rw [e]; rfl⟩) (by simp)
    have hl : (0 + 1 == (v :: vs).length) = false := by
      simp at hrl ⊢
      intro e
      rw [e] at hrl
      simp at hrl
    rw [hl] at hwr
    obtain ⟨l, ps, hG, hS, hT, he, hfst, hgaps⟩ := glue_slots (hu y (by simp)) hwr hP hL
    have hsl := found_slinkuhi h
    simp only at hsl
    rw [hw, he] at hsl
    obtain ⟨t, ht, ha⟩ := glued_word hG hS hT hsl (by rw [← he, ← hw]; exact hlen)
    rw [← he, ← hw] at ha
    obtain ⟨u, z', e1, hg⟩ := glued_gaps hG
    obtain ⟨u', z'', e2, e3, hg', e4⟩ := layout_pairs hlay
    have hcv : ∀ x ∈ l.map Prod.fst, Clean x ∧ ∃ c ∈ x, Vowel c := by
      intro x hx
      rw [hfst] at hx
      obtain ⟨q, hq, rfl⟩ := List.mem_map.1 hx
      exact ⟨hclean _ (List.mem_map_of_mem hq), unit_vowel (hu q hq)⟩
    subst e1
    obtain ⟨rfl, rfl⟩ := gaps_unique_clean (hfst.trans e3.symm) hcv hg hg' (by rw [← he, ← hw, e2])
    have hgg : ∀ p ∈ u ++ [(z', [])], (Clean p.1 ∧ ∃ c ∈ p.1, Vowel c) ∧ Gap p.2 := by
      intro p hp
      refine ⟨hcv p.1 (List.mem_map_of_mem hp), ?_⟩
      rcases List.mem_append.1 hp with hp | hp
      · exact hg p hp
      · simp at hp
        subst hp
        exact .inl rfl
    exact ⟨_, t, ht, ha, by rw [← e4]; exact indices_clean hgg, hgg, hgaps⟩

end Jvotci
