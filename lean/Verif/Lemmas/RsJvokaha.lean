import Verif.Lemmas.RsSlin

/-!
# The Rust crate cuts words as the Python version does
-/

namespace Jvotci

open Spec

theorem jvokaha2_no_ccvhy {y : YHyphens} {mz : Bool} {w : Str} {arr : List Str} (h : jvokaha2 y mz w = .ok arr) :
    rafsiTarmi (slice w 0 3) = .ccv → slice w 3 5 ≠ s%"'y" := by
  intro h3 h5
  obtain ⟨a', b', v', e, ha, hb, hv⟩ := tarmi_ccv.1 h3
  match w, e, h5 with
  | [], e, _ => simp [slice] at e
  | [_], e, _ => simp [slice] at e
  | [_, _], e, _ => simp [slice] at e
  | [_, _, _], _, h5 => simp [slice] at h5
  | [_, _, _, _], _, h5 => simp [slice] at h5
  | a :: b :: v :: d :: f :: t, e, h5 =>
    simp [slice] at e h5
    obtain ⟨rfl, rfl, rfl⟩ := e
    obtain ⟨rfl, rfl⟩ := h5
    unfold jvokaha2 at h
    rw [List.length_cons] at h
    unfold jvokaha2Loop at h
    rw [if_neg (by simp)] at h
    rw [show takeHyphen y _ [] = .ok none from rfl, ok_bind] at h
    simp only at h
    obtain ⟨cut, hcut, -⟩ := bind_ok h
    have k1 := ha
    have k2 := hb
    have k3 := hv
    have k4 := not_vowel_of_consonant k1
    have k5 := not_vowel_of_consonant k2
    have k6 := not_consonant_of_vowel k3
    have t4 : rafsiTarmi (slice (a :: b :: v :: '\'' :: 'y' :: t) 0 4) = .other := by
      simp [slice, rafsiTarmi, k1, k2, k3, k4, k5, k6, show isConsonant '\'' = false from by decide]
    have t5 : ¬ (rafsiTarmi (a :: b :: v :: '\'' :: 'y' :: t) = .cvccv ∨ rafsiTarmi (a :: b :: v :: '\'' :: 'y' :: t) = .ccvcv) := by
      intro h
      have := long_shape h
      simp [k2, k3, k5, show isConsonant '\'' = false from by decide] at this
    have s5 : slice (a :: b :: v :: '\'' :: 'y' :: t) 3 5 = s%"'y" := by simp [slice]
    unfold takeRafsi at hcut
    simp only [h3, t4, if_neg t5, s5] at hcut
    simp at hcut
    split at hcut <;> cases hcut

/-- Both versions cut a word the same way, or neither does. -/
theorem near_jvokaha_any {A : RsRest} {n : Nat} {y : YHyphens} {co : Consonants} {gl mz : Bool} {w : Str} {c : Char}
    (hw : Cuttable w) (ho : rafsiTarmi (slice w 0 3) = .ccv → slice w 3 5 ≠ s%"'y") (hwc : w.getLast? = some c) (hv : Vowel c)
    (hlen : w.length < 180000) :
    Near (jvokaha (program .linked) y co gl mz w) (rsJvokaha A (rsSlinkuhi A (n + 2)) y co gl mz w) := by
  unfold jvokaha rsJvokaha
  rcases (near_jvokaha2 (y := y) (mz := mz) hw ho).symm with ⟨e, e', h1, h2, h3, h4⟩ | ⟨arr, a1, a2⟩
  · rw [h1, h2]
    exact .err h3 h4
  rw [a1, a2]
  simp only [bind, Except.bind]
  by_cases h2 : ((arr.filter (fun x => x.length > 2)).map (fun x => s%"-" ++ x ++ s%"-")).length = 1
  · rw [if_pos h2, if_pos h2]
    exact .err (.inl rfl) (.inl rfl)
  rw [if_neg h2, if_neg h2]
  obtain ⟨hj, hC⟩ := jvokaha2_ok a1
  rw [List.length_map] at h2
  have hne : arr ≠ [] := by
    rintro rfl
    rw [show join [] = [] from rfl] at hj
    rw [← hj] at hwc
    cases hwc
  have hlast : ∃ p, arr.getLast? = some p ∧ p.getLast? = some c := by
    cases hp : arr.getLast? with
    | none => simp at hp; exact absurd hp hne
    | some p =>
      obtain ⟨u, rfl⟩ := List.getLast?_eq_some_iff.1 hp
      refine ⟨p, rfl, ?_⟩
      have hpn : p ≠ [] := by
        have := hC.mem p (by simp)
        rcases this with ⟨_, h⟩ | h | h | h | h
        · exact rafsi_ne h
        all_goals subst h; simp
      have e : join (u ++ [p]) = u.flatten ++ p := by simp [join]
      rw [← hj, e, List.getLast?_append] at hwc
      cases hg : p.getLast? with
      | none => simp at hg; exact absurd hg hpn
      | some d => rw [hg] at hwc; simpa using hwc
  obtain ⟨p, hp, hpc⟩ := hlast
  rw [hp]
  have hcc : isConsonant c = false := not_consonant_of_vowel ((isVowel_iff c).2 hv)
  simp only [idxLast, hpc, rsBack_of hpc, rsIsConsonant_eq, hcc]
  have hlen2 : 2 ≤ (arr.filter (fun x => x.length > 2)).length := by
    cases arr with
    | nil => exact absurd rfl hne
    | cons p arr =>
      have hp := rafsi_length hC.head.1.rafsi
      rw [List.filter_cons, if_pos (by simp; omega)] at h2 ⊢
      rw [List.length_cons] at h2 ⊢
      omega
  obtain ⟨l, hcan, hfst⟩ := canon_exists (kahaSettings y co gl mz) false hlen2
  have hmade : Made (kahaSettings y co gl mz) false l := by
    refine ⟨hcan, ?_, ?_⟩
    · intro p hp
      exact hC.filter p.1 (hfst ▸ List.mem_map.2 ⟨p, hp, rfl⟩)
    · intro p hp
      refine chop_long hC p.1 (hfst ▸ ?_)
      rw [← List.map_dropLast]
      exact List.mem_map.2 ⟨p, hp, rfl⟩
  have hd : ∀ p ∈ l, Diph p.1 := by
    intro p hp
    have : p.1 ∈ arr.filter (fun x => x.length > 2) := hfst ▸ List.mem_map.2 ⟨p, hp, rfl⟩
    exact chop_diph hC _ (List.mem_filter.1 this).1
  have hread := C37_reading_found (ext_reading hmade (Ext.refl y l) hd)
  rw [flat_spell] at hread
  have hend : (spell l).getLast? = some c := by
    obtain ⟨u, x, e⟩ := canon_end hmade.canon
    have hxp : x = p := by
      obtain ⟨u', e'⟩ := List.getLast?_eq_some_iff.1 hp
      have hp2 : 2 < p.length := by
        have := hC.mem p (by rw [e']; simp)
        rcases this with ⟨_, h⟩ | h | h | h | h
        · have := rafsi_length h; omega
        all_goals
          subst h
          simp at hpc
          subst hpc
          revert hv; decide
      rw [e', List.filter_append, List.filter_cons_of_pos (by simpa using hp2), e] at hfst
      simp at hfst
      exact hfst.2
    subst hxp
    rw [e, spell]
    simp only [List.map_append, List.flatten_append, List.map_cons, List.map_nil, List.append_nil, List.flatten_cons, List.flatten_nil]
    rw [List.getLast?_append, hpc]
    rfl
  have hcomp : ∀ v ∈ (l.map Prod.fst).map dash, RsComponent A (kahaSettings y co gl mz) v := by
    intro v hv
    obtain ⟨x, hx, rfl⟩ := List.mem_map.1 hv
    have := made_xs hmade x hx
    exact .rafsi ⟨letters_no_dash (rafsi_letters this), 0, 0, rfl⟩ this
  have hjl : join arr = arr.flatten := rfl
  have hsize : (arr.filter (fun x => x.length > 2)).length < 60000 := by
    have h3 := filter_three arr
    have := congrArg List.length hj
    rw [hjl] at this
    omega
  have el : (l.map Prod.fst).map dash = (arr.filter (fun x => x.length > 2)).map (fun x => s%"-" ++ x ++ s%"-") := by rw [hfst]; rfl
  have hsame := rs_made (n := n) (g := false) hcomp (by rw [List.length_map, hfst]; exact hlen2)
    (by rw [List.length_map, hfst]; exact hsize)
  rw [el] at hsame
  rcases hsame with ⟨r, hpy, hrs⟩ | ⟨hpy, hrs⟩
  rotate_left
  · simp only [kahaSettings] at hpy hrs
    rw [hpy, hrs]
    exact .err (.inl rfl) (.inl rfl)
  · have hpy' := hpy
    simp only [kahaSettings] at hpy hrs
    rw [hpy, hrs]
    have e : r.1 = spell l := by
      have hpy'' := hpy'
      rw [← el] at hpy''
      unfold getLujvoFromList at hpy''
      obtain ⟨ll, l1, h⟩ := bind_ok hpy''
      obtain ⟨best, l2, h⟩ := bind_ok h
      cases hq : pickBest false best with
      | none => rw [hq] at h; cases h
      | some r' =>
        rw [hq] at h
        simp only [Bool.not_false, if_true] at h
        obtain ⟨b, -, h⟩ := bind_ok h
        cases b with
        | true => cases h
        | false =>
          cases h
          obtain ⟨h1, h2⟩ := search_built l1 l2 hq
          exact (made_best hmade (made_fine hmade h1)).2 _ _ h1 h2
    have hgood : ∀ good : Bool, Near (if good = true then Except.ok arr else .error .decomposition) (if good = true then Except.ok arr else .error .decomposition) := by
      intro good
      cases good
      · exact .err (.inl rfl) (.inl rfl)
      · exact .ok _
    by_cases hy : y = .forceY
    · simp only [if_pos hy]
      exact hgood _
    · simp only [if_neg hy]
      obtain ⟨corr, k1, k2⟩ := recut a1 hne h2 hy hpy'
      have hgl := canon_glue hmade.canon
      have hcut : Cuttable r.1 := by
        refine ⟨?_, ?_, ?_⟩
        · rw [e]
          exact spell_letters fun p hp => ⟨hmade.rafsi p hp, hgl p hp⟩
        · exact madeOk_no_yy (getLujvoFromList_made (fun x hx => hC.filter x hx) hpy').1
        · rw [e, hend]
          constructor <;> intro h <;> cases h <;> revert hv <;> decide
      have k3 : rsJvokaha2 .standard mz r.1 = .ok corr := by
        rcases near_jvokaha2 (y := .standard) (mz := mz) hcut (jvokaha2_no_ccvhy k2) with ⟨a, b1, b2⟩ | ⟨_, _, b1, -⟩
        · rw [k2] at b1
          cases b1
          exact b2
        · rw [k2] at b1
          cases b1
      rw [k1, k3]
      have hcorr : corr = flat l := by
        have h : jvokaha2 y mz (spell l) = .ok (flat l) := hread
        rw [← e, k1] at h
        cases h; rfl
      obtain ⟨t, ht⟩ := compare_safe (other := arr) (flat l) 0 (by
        rw [List.drop_zero, flat_rafsi (mz := mz) fun p hp => ⟨hmade.rafsi p hp, hgl p hp⟩]
        exact hfst.symm) (by
        intro p hp
        obtain ⟨u, x, e⟩ := canon_end hmade.canon
        rw [flat_last e] at hp
        cases hp
        have := rafsi_length (hmade.rafsi (p, []) (by rw [e]; simp))
        dsimp only at this
        omega)
      have hrc := rsCompareLoop_ok (mz := mz) hC.mem (flat l) 0 t ht
      simp only [compareLujvoPieces, rsComparePieces, hcorr, ht, hrc]
      exact hgood _

end Jvotci
