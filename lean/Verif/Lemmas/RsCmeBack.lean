import Verif.Lemmas.RsCme
import Verif.Lemmas.CleanY

/-!
# The Python version cuts every word that the Rust crate cuts

For words that do not end in y (and do not begin with CCV'y).
-/

namespace Jvotci

open Spec

theorem back_jvokaha2Loop {y : YHyphens} {mz : Bool} {o : Str} (ho : rafsiTarmi (slice o 0 3) = .ccv → slice o 3 5 ≠ s%"'y") :
    ∀ (n : Nat) (w : Str) (res arr : List Str), Loose w → rsJvokaha2Loop y mz o n w res = .ok arr → jvokaha2Loop y mz o n w res = .ok arr
  | 0, _, _, _, _, h => by unfold rsJvokaha2Loop at h; cases h
  | n + 1, w, res, arr, hw, h => by
    unfold rsJvokaha2Loop at h
    unfold jvokaha2Loop
    by_cases h0 : w = []
    · rw [if_pos h0] at h ⊢
      cases h
      rfl
    rw [if_neg h0] at h ⊢
    have hq : takeHyphen y w res = .ok (rsTakeHyphen y w res) ∨ w = ['r'] := by
      by_cases hr : w.getLast? = some 'r'
      · match w, h0, hr with
        | [c0], _, hr =>
          have hr : c0 = 'r' := by simpa using hr
          exact .inr (by rw [hr])
        | c0 :: c1 :: cs, h0, _ =>
          cases hk : takeHyphen y (c0 :: c1 :: cs) res with
          | ok q => rw [rsTakeHyphen_kept h0 hk]; exact .inl rfl
          | error e =>
            exfalso
            unfold takeHyphen at hk
            match res with
            | [] => cases hk
            | prev :: res =>
              dsimp only at hk
              split at hk
              · cases hk
              split at hk
              · cases hk
              obtain ⟨b, hb⟩ : ∃ b, (if y ≠ .forceY then
                    if slice (c0 :: c1 :: cs) 0 2 = s%"nr" then Except.ok true
                    else if c0 = 'r' then (Except.ok (isConsonant c1 && c1 != 'r') : Except Err Bool)
                    else .ok false
                  else Except.ok false) = .ok b := by
                split
                · split
                  · exact ⟨_, rfl⟩
                  · split <;> exact ⟨_, rfl⟩
                · exact ⟨_, rfl⟩
              rw [hb, ok_bind] at hk
              split at hk
              · cases hk
              · split at hk <;> cases hk
      · exact .inl (rsTakeHyphen_ok h0 hr)
    rcases hq with hq | rfl
    · rw [hq, ok_bind]
      cases hx : rsTakeHyphen y w res with
      | some x =>
        rw [hx] at h
        have hw' : Loose (w.drop x.length) := by
          have := hw
          rw [← List.take_append_drop x.length w] at this
          exact this.suffix
        exact back_jvokaha2Loop ho n _ _ _ hw' h
      | none =>
        rw [hx] at h
        simp only at h ⊢
        cases hcut : rsTakeRafsi mz o w with
        | error e => rw [hcut] at h; cases h
        | ok cut =>
          rw [hcut] at h
          have h2 : takeRafsi mz o w = .ok cut := by
            rcases near_takeRafsi (mz := mz) (o := o) hw ho with ⟨cut', h1, h2⟩ | ⟨e, e', h1, h2, h3, h4⟩
            · rw [hcut] at h2
              cases h2
              exact h1
            · rw [hcut] at h2
              cases h2
          rw [h2, ok_bind]
          rcases takeRafsi_ok h2 with ⟨p, rest, he, hc, rfl⟩ | ⟨p, rest, he, hp, hc, rfl⟩ | ⟨hc, rfl⟩
          · exact back_jvokaha2Loop ho n _ _ _ ((he ▸ hw).suffix) h
          · have hw' : Loose ((p ++ ['y']) ++ rest) := by
              have := hw
              rw [he] at this
              simpa using this
            exact back_jvokaha2Loop ho n _ _ _ hw'.suffix h
          · cases h
            rfl
    · exfalso
      have hx : rsTakeHyphen y ['r'] res = none := by
        unfold rsTakeHyphen
        match res with
        | [] => rfl
        | prev :: res =>
          have e0 : rsIsConsonant (rsAt ['r'] 1) = false := by decide
          have e1 : rsAt ['r'] 0 = 'r' := rfl
          simp [e0, e1, slice]
      rw [hx] at h
      have hcut : rsTakeRafsi mz o ['r'] = .error .decomposition := by
        unfold rsTakeRafsi
        have e0 : rsIsVowel (rsAt ['r'] 0) = false := by decide
        simp [slice, rsRafsiTarmi, rsTarmi3, e0]
      rw [hcut] at h
      cases h

theorem back_jvokaha2 {y : YHyphens} {mz : Bool} {w : Str} {arr : List Str} (hw : Loose w)
    (ho : rafsiTarmi (slice w 0 3) = .ccv → slice w 3 5 ≠ s%"'y") (h : rsJvokaha2 y mz w = .ok arr) :
    jvokaha2 y mz w = .ok arr := back_jvokaha2Loop ho _ _ _ _ hw h

/-- Pieces of a word without y that the Rust crate finds are found by the Python version. -/
theorem back_jvokaha {A : RsRest} {n : Nat} {y : YHyphens} {co : Consonants} {gl mz : Bool} {w : Str} {arr : List Str} {c : Char}
    (hw : Loose w) (hy0 : 'y' ∉ w) (hwc : w.getLast? = some c) (hlen : w.length < 180000)
    (h : rsJvokaha A (rsSlinkuhi A (n + 2)) y co gl mz w = .ok arr) : jvokaha (program .linked) y co gl mz w = .ok arr := by
  unfold rsJvokaha at h
  unfold jvokaha
  cases a2 : rsJvokaha2 y mz w with
  | error e => rw [a2] at h; cases h
  | ok arr' =>
  have a1 : jvokaha2 y mz w = .ok arr' := back_jvokaha2 hw (by
    intro _ e
    have hm : 'y' ∈ slice w 3 5 := by rw [e]; simp
    unfold slice at hm
    exact hy0 (List.mem_of_mem_take (List.mem_of_mem_drop hm))) a2
  rw [a1]
  rw [a2] at h
  simp only [bind, Except.bind] at h ⊢
  by_cases h2 : ((arr'.filter (fun x => x.length > 2)).map (fun x => s%"-" ++ x ++ s%"-")).length = 1
  · rw [if_pos h2] at h
    cases h
  rw [if_neg h2] at h ⊢
  obtain ⟨hj, hC⟩ := jvokaha2_ok a1
  rw [List.length_map] at h2
  have hne : arr' ≠ [] := by
    rintro rfl
    rw [show join [] = [] from rfl] at hj
    rw [← hj] at hwc
    cases hwc
  obtain ⟨u, p, rfl, hcut⟩ := chop_last hC (by rw [hj]; exact hy0) hne
  have hpr := hcut.rafsi
  have hp3 := (rafsi_length hpr).1
  have hpc : p.getLast? = some c := by
    have e : join (u ++ [p]) = u.flatten ++ p := by simp [join]
    rw [← hj, e, List.getLast?_append] at hwc
    cases hg : p.getLast? with
    | none => simp at hg; exact absurd hg (rafsi_ne hpr)
    | some d => rw [hg] at hwc; simpa using hwc
  have hl : (u ++ [p]).getLast? = some p := by simp
  rw [hl] at h ⊢
  generalize harr : u ++ [p] = arr' at *
  simp only [idxLast, hpc, rsBack_of hpc, rsIsConsonant_eq] at h ⊢
  have hlen2 : 2 ≤ (arr'.filter (fun x => x.length > 2)).length := by
    cases arr' with
    | nil => exact absurd rfl hne
    | cons p arr' =>
      have hp := rafsi_length hC.head.1.rafsi
      rw [List.filter_cons, if_pos (by simp; omega)] at h2 ⊢
      rw [List.length_cons] at h2 ⊢
      omega
  obtain ⟨l, hcan, hfst⟩ := canon_exists (kahaSettings y co gl mz) (isConsonant c) hlen2
  have hmade : Made (kahaSettings y co gl mz) (isConsonant c) l := by
    refine ⟨hcan, ?_, ?_⟩
    · intro p hp
      exact hC.filter p.1 (hfst ▸ List.mem_map.2 ⟨p, hp, rfl⟩)
    · intro p hp
      refine chop_long hC p.1 (hfst ▸ ?_)
      rw [← List.map_dropLast]
      exact List.mem_map.2 ⟨p, hp, rfl⟩
  have hd : ∀ p ∈ l, Diph p.1 := by
    intro p hp
    have : p.1 ∈ arr'.filter (fun x => x.length > 2) := hfst ▸ List.mem_map.2 ⟨p, hp, rfl⟩
    exact chop_diph hC _ (List.mem_filter.1 this).1
  have hrd := ext_reading hmade (Ext.refl y l) hd
  have hread := C37_reading_found hrd
  rw [flat_spell] at hread
  have hread : jvokaha2 y mz (spell l) = .ok (flat l) := hread
  have hcomp : ∀ v ∈ (l.map Prod.fst).map dash, RsComponent A (kahaSettings y co gl mz) v := by
    intro v hv
    obtain ⟨x, hx, rfl⟩ := List.mem_map.1 hv
    have := made_xs hmade x hx
    exact .rafsi ⟨letters_no_dash (rafsi_letters this), 0, 0, rfl⟩ this
  have hjl : join arr' = arr'.flatten := rfl
  have hsize : (arr'.filter (fun x => x.length > 2)).length < 60000 := by
    have h3 := filter_three arr'
    have := congrArg List.length hj
    rw [hjl] at this
    omega
  have el : (l.map Prod.fst).map dash = (arr'.filter (fun x => x.length > 2)).map (fun x => s%"-" ++ x ++ s%"-") := by rw [hfst]; rfl
  have hsame := rs_made (n := n) (g := isConsonant c) hcomp (by rw [List.length_map, hfst]; exact hlen2)
    (by rw [List.length_map, hfst]; exact hsize)
  rcases hsame with ⟨r, hpy, hrs⟩ | ⟨hpy, hrs⟩
  rotate_left
  · rw [el] at hrs
    simp only [kahaSettings] at hrs
    rw [hrs] at h
    cases h
  · obtain ⟨hs, hapt⟩ := made_search hmade hpy
    rw [el] at hpy hrs
    have hpy' := hpy
    simp only [kahaSettings] at hpy hrs
    rw [hrs] at h
    rw [hpy]
    dsimp only at h ⊢
    by_cases hy : y = .forceY
    · simp only [if_pos hy] at h ⊢
      obtain ⟨hg, h⟩ | ⟨hg, h⟩ : ((r.1 == w) = true ∧ arr' = arr) ∨ ((r.1 == w) = false ∧ False) := by
        cases hg : (r.1 == w) with
        | true => rw [hg] at h; cases h; exact .inl ⟨rfl, rfl⟩
        | false => rw [hg] at h; cases h
      · rw [hg, h]; rfl
      · exact h.elim
    · simp only [if_neg hy] at h ⊢
      obtain ⟨corr, k1, k2⟩ := recut a1 hne h2 hy hpy'
      have hgl := canon_glue hmade.canon
      have hloose : Loose r.1 := by
        rw [hs, ← flat_spell]
        obtain ⟨d, hd1, hd2⟩ := hapt.ends
        refine reading_loose hrd (by rw [flat_spell]; exact hd1) ?_
        rintro rfl
        split at hd2 <;> revert hd2 <;> decide
      have k3 : rsJvokaha2 .standard mz r.1 = .ok corr := kept_jvokaha2 hloose k2
      rw [k3] at h
      rw [k1]
      have hcorr : corr = flat l := by
        rw [← hs, k1] at hread
        cases hread; rfl
      obtain ⟨t, ht⟩ := compare_safe (other := arr') (flat l) 0 (by
        rw [List.drop_zero, flat_rafsi (mz := mz) fun p hp => ⟨hmade.rafsi p hp, hgl p hp⟩]
        exact hfst.symm) (by
        intro p hp
        obtain ⟨u, x, e⟩ := canon_end hmade.canon
        rw [flat_last e] at hp
        cases hp
        have := rafsi_length (hmade.rafsi (p, []) (by rw [e]; simp))
        dsimp only at this
        omega)
      have hrc := rsCompareLoop_ok (mz := mz) hC.mem (flat l) 0 t ht
      simp only [compareLujvoPieces, rsComparePieces, hcorr, ht, hrc] at h ⊢
      cases t with
      | true => cases h; rfl
      | false => cases h

theorem rs_jvokaha2Loop_err {y : YHyphens} {mz : Bool} {o : Str} {e : RsErr} (ho : rafsiTarmi (slice o 0 3) = .ccv → slice o 3 5 ≠ s%"'y") :
    ∀ (n : Nat) (w : Str) (res : List Str), Loose w → w.length < n → rsJvokaha2Loop y mz o n w res = .error e →
      e = .decomposition ∨ e = .invalidCluster
  | 0, _, _, _, hn, _ => by omega
  | n + 1, w, res, hw, hn, h => by
    unfold rsJvokaha2Loop at h
    by_cases h0 : w = []
    · rw [if_pos h0] at h; cases h
    rw [if_neg h0] at h
    have hpos := List.length_pos_iff.2 h0
    cases hx : rsTakeHyphen y w res with
    | some x =>
      rw [hx] at h
      have hxl : 0 < x.length := by
        unfold rsTakeHyphen at hx
        match res, hx with
        | [], hx => cases hx
        | prev :: res, hx =>
          dsimp only at hx
          repeat' split at hx
          all_goals cases hx
          all_goals first
            | (simp; done)
            | (simp [slice]; omega)
            | (simp only [slice, List.drop_zero, List.length_take]; omega)
      have hw' : Loose (w.drop x.length) := by
        have := hw
        rw [← List.take_append_drop x.length w] at this
        exact this.suffix
      exact rs_jvokaha2Loop_err ho n _ _ hw' (by rw [List.length_drop]; omega) h
    | none =>
      rw [hx] at h
      simp only at h
      rcases near_takeRafsi (mz := mz) (o := o) hw ho with ⟨cut, h1, h2⟩ | ⟨e1, e2, h1, h2, h3, h4⟩
      · rw [h2] at h
        rcases takeRafsi_ok h1 with ⟨p, rest, he, hc, rfl⟩ | ⟨p, rest, he, hp, hc, rfl⟩ | ⟨hc, rfl⟩
        · have hl := congrArg List.length he
          rw [List.length_append] at hl
          have := hc.length_pos
          exact rs_jvokaha2Loop_err ho n _ _ ((he ▸ hw).suffix) (by omega) h
        · have hl := congrArg List.length he
          simp only [List.length_append, List.length_cons] at hl
          have hw' : Loose ((p ++ ['y']) ++ rest) := by
            have := hw
            rw [he] at this
            simpa using this
          exact rs_jvokaha2Loop_err ho n _ _ hw'.suffix (by omega) h
        · cases h
      · rw [h2] at h
        cases h
        exact h4

theorem rs_jvokaha2_err {y : YHyphens} {mz : Bool} {w : Str} {e : RsErr} (hw : Loose w)
    (ho : rafsiTarmi (slice w 0 3) = .ccv → slice w 3 5 ≠ s%"'y") (h : rsJvokaha2 y mz w = .error e) :
    e = .decomposition ∨ e = .invalidCluster := rs_jvokaha2Loop_err ho _ _ _ hw (by omega) h

/-- Of a word without y the Rust crate refuses to cut in the usual ways only. -/
theorem rs_jvokaha_err {A : RsRest} {n : Nat} {y : YHyphens} {co : Consonants} {gl mz : Bool} {w : Str} {e : RsErr} {c : Char}
    (hw : Loose w) (hy0 : 'y' ∉ w) (hwc : w.getLast? = some c) (hlen : w.length < 180000)
    (h : rsJvokaha A (rsSlinkuhi A (n + 2)) y co gl mz w = .error e) :
    e = .decomposition ∨ e = .invalidCluster := by
  unfold rsJvokaha at h
  have hccv : rafsiTarmi (slice w 0 3) = .ccv → slice w 3 5 ≠ s%"'y" := by
    intro _ e
    have hm : 'y' ∈ slice w 3 5 := by rw [e]; simp
    unfold slice at hm
    exact hy0 (List.mem_of_mem_take (List.mem_of_mem_drop hm))
  cases a2 : rsJvokaha2 y mz w with
  | error e => rw [a2] at h; cases h; exact rs_jvokaha2_err hw hccv a2
  | ok arr' =>
  have a1 : jvokaha2 y mz w = .ok arr' := back_jvokaha2 hw hccv a2
  rw [a2] at h
  simp only [bind, Except.bind] at h
  by_cases h2 : ((arr'.filter (fun x => x.length > 2)).map (fun x => s%"-" ++ x ++ s%"-")).length = 1
  · rw [if_pos h2] at h
    cases h
    exact .inl rfl
  rw [if_neg h2] at h
  obtain ⟨hj, hC⟩ := jvokaha2_ok a1
  rw [List.length_map] at h2
  have hne : arr' ≠ [] := by
    rintro rfl
    rw [show join [] = [] from rfl] at hj
    rw [← hj] at hwc
    cases hwc
  obtain ⟨u, p, rfl, hcut⟩ := chop_last hC (by rw [hj]; exact hy0) hne
  have hpr := hcut.rafsi
  have hp3 := (rafsi_length hpr).1
  have hpc : p.getLast? = some c := by
    have e : join (u ++ [p]) = u.flatten ++ p := by simp [join]
    rw [← hj, e, List.getLast?_append] at hwc
    cases hg : p.getLast? with
    | none => simp at hg; exact absurd hg (rafsi_ne hpr)
    | some d => rw [hg] at hwc; simpa using hwc
  have hl : (u ++ [p]).getLast? = some p := by simp
  rw [hl] at h
  generalize harr : u ++ [p] = arr' at *
  simp only [idxLast, hpc, rsBack_of hpc, rsIsConsonant_eq] at h
  have hlen2 : 2 ≤ (arr'.filter (fun x => x.length > 2)).length := by
    cases arr' with
    | nil => exact absurd rfl hne
    | cons p arr' =>
      have hp := rafsi_length hC.head.1.rafsi
      rw [List.filter_cons, if_pos (by simp; omega)] at h2 ⊢
      rw [List.length_cons] at h2 ⊢
      omega
  obtain ⟨l, hcan, hfst⟩ := canon_exists (kahaSettings y co gl mz) (isConsonant c) hlen2
  have hmade : Made (kahaSettings y co gl mz) (isConsonant c) l := by
    refine ⟨hcan, ?_, ?_⟩
    · intro p hp
      exact hC.filter p.1 (hfst ▸ List.mem_map.2 ⟨p, hp, rfl⟩)
    · intro p hp
      refine chop_long hC p.1 (hfst ▸ ?_)
      rw [← List.map_dropLast]
      exact List.mem_map.2 ⟨p, hp, rfl⟩
  have hd : ∀ p ∈ l, Diph p.1 := by
    intro p hp
    have : p.1 ∈ arr'.filter (fun x => x.length > 2) := hfst ▸ List.mem_map.2 ⟨p, hp, rfl⟩
    exact chop_diph hC _ (List.mem_filter.1 this).1
  have hrd := ext_reading hmade (Ext.refl y l) hd
  have hread := C37_reading_found hrd
  rw [flat_spell] at hread
  have hread : jvokaha2 y mz (spell l) = .ok (flat l) := hread
  have hcomp : ∀ v ∈ (l.map Prod.fst).map dash, RsComponent A (kahaSettings y co gl mz) v := by
    intro v hv
    obtain ⟨x, hx, rfl⟩ := List.mem_map.1 hv
    have := made_xs hmade x hx
    exact .rafsi ⟨letters_no_dash (rafsi_letters this), 0, 0, rfl⟩ this
  have hjl : join arr' = arr'.flatten := rfl
  have hsize : (arr'.filter (fun x => x.length > 2)).length < 60000 := by
    have h3 := filter_three arr'
    have := congrArg List.length hj
    rw [hjl] at this
    omega
  have el : (l.map Prod.fst).map dash = (arr'.filter (fun x => x.length > 2)).map (fun x => s%"-" ++ x ++ s%"-") := by rw [hfst]; rfl
  have hsame := rs_made (n := n) (g := isConsonant c) hcomp (by rw [List.length_map, hfst]; exact hlen2)
    (by rw [List.length_map, hfst]; exact hsize)
  rcases hsame with ⟨r, hpy, hrs⟩ | ⟨hpy, hrs⟩
  rotate_left
  · rw [el] at hrs
    simp only [kahaSettings] at hrs
    rw [hrs] at h
    cases h
    exact .inl rfl
  · obtain ⟨hs, hapt⟩ := made_search hmade hpy
    rw [el] at hpy hrs
    have hpy' := hpy
    simp only [kahaSettings] at hpy hrs
    rw [hrs] at h
    dsimp only at h
    by_cases hy : y = .forceY
    · simp only [if_pos hy] at h
      split at h
      · cases h
      · cases h; exact .inl rfl
    · simp only [if_neg hy] at h
      obtain ⟨corr, k1, k2⟩ := recut a1 hne h2 hy hpy'
      have hgl := canon_glue hmade.canon
      have hloose : Loose r.1 := by
        rw [hs, ← flat_spell]
        obtain ⟨d, hd1, hd2⟩ := hapt.ends
        refine reading_loose hrd (by rw [flat_spell]; exact hd1) ?_
        rintro rfl
        split at hd2 <;> revert hd2 <;> decide
      have k3 : rsJvokaha2 .standard mz r.1 = .ok corr := kept_jvokaha2 hloose k2
      rw [k3] at h
      have hcorr : corr = flat l := by
        rw [← hs, k1] at hread
        cases hread; rfl
      obtain ⟨t, ht⟩ := compare_safe (other := arr') (flat l) 0 (by
        rw [List.drop_zero, flat_rafsi (mz := mz) fun p hp => ⟨hmade.rafsi p hp, hgl p hp⟩]
        exact hfst.symm) (by
        intro p hp
        obtain ⟨u, x, e⟩ := canon_end hmade.canon
        rw [flat_last e] at hp
        cases hp
        have := rafsi_length (hmade.rafsi (p, []) (by rw [e]; simp))
        dsimp only at this
        omega)
      have hrc := rsCompareLoop_ok (mz := mz) hC.mem (flat l) 0 t ht
      simp only [rsComparePieces, hcorr, hrc] at h
      cases t with
      | true => cases h
      | false => cases h; exact .inl rfl

end Jvotci
