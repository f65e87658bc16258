import Verif.Lemmas.RsAnalyse

/-!
# The Rust crate cuts every word that the Python version cuts

Unlike `near_jvokaha_any` this also holds of words that end in a consonant.
-/

namespace Jvotci

open Spec

theorem rsTakeHyphen_kept {y : YHyphens} {w : Str} {res : List Str} {o : Option Str} (hw : w ≠ []) (h : takeHyphen y w res = .ok o) :
    rsTakeHyphen y w res = o := by
  by_cases hl : w.getLast? = some 'r'
  · match w, hw, hl with
    | [c0], _, hl =>
      have hl : c0 = 'r' := by simpa using hl
      subst hl
      unfold takeHyphen at h
      unfold rsTakeHyphen
      match res with
      | [] => cases h; rfl
      | prev :: res =>
        dsimp only at h ⊢
        split at h
        · rename_i h1
          cases h
          rw [if_pos h1]
        · rename_i h1
          rw [if_neg h1]
          have e0 : rsIsConsonant (rsAt ['r'] 1) = false := by decide
          cases y <;> simp [bind, Except.bind, slice] at h
          subst h
          simp [rsAt_zero, slice]
    | c0 :: c1 :: cs, _, _ =>
      have hk : takeHyphen y (c0 :: c1 :: cs) res = .ok (rsTakeHyphen y (c0 :: c1 :: cs) res) := by
        unfold takeHyphen rsTakeHyphen
        match res with
        | [] => rfl
        | prev :: res =>
          dsimp only
          by_cases h1 : prev.length = 1
          · rw [if_pos h1, if_pos h1]
          rw [if_neg h1, if_neg h1]
          simp only [rsRafsiTarmi_safe (t := .cvv) (by simp), rsRafsiTarmi_safe (t := .cvhv) (by simp)]
          by_cases hy : c0 = 'y'
          · subst hy; simp [rsAt_zero, slice]
          · rw [if_neg hy]
            simp only [rsAt_zero, rsAt_succ, rsIsConsonant_eq, hy, false_or]
            rw [show slice (c0 :: c1 :: cs) 0 1 = [c0] from rfl, show slice (c0 :: c1 :: cs) 0 2 = [c0, c1] from rfl]
            cases y <;> simp only [ne_eq, reduceCtorEq, not_false_eq_true, not_true_eq_false, if_true, if_false, false_and, true_and, bind, Except.bind] <;>
              grind
      rw [hk] at h
      cases h
      rfl
  · rw [rsTakeHyphen_ok hw hl] at h
    cases h
    rfl

theorem kept_jvokaha2Loop {y : YHyphens} {mz : Bool} {o : Str} (ho : rafsiTarmi (slice o 0 3) = .ccv → slice o 3 5 ≠ s%"'y") :
    ∀ (n : Nat) (w : Str) (res arr : List Str), Loose w → jvokaha2Loop y mz o n w res = .ok arr → rsJvokaha2Loop y mz o n w res = .ok arr
  | 0, _, _, _, _, h => by unfold jvokaha2Loop at h; cases h
  | n + 1, w, res, arr, hw, h => by
    unfold jvokaha2Loop at h
    unfold rsJvokaha2Loop
    by_cases h0 : w = []
    · rw [if_pos h0] at h ⊢
      cases h
      rfl
    rw [if_neg h0] at h ⊢
    obtain ⟨q, hq, h⟩ := bind_ok h
    rw [rsTakeHyphen_kept h0 hq]
    cases q with
    | some x =>
      have hw' : Loose (w.drop x.length) := by
        have := hw
        rw [← List.take_append_drop x.length w] at this
        exact this.suffix
      exact kept_jvokaha2Loop ho n _ _ _ hw' h
    | none =>
      simp only at h ⊢
      obtain ⟨cut, hcut, h⟩ := bind_ok h
      have h2 : rsTakeRafsi mz o w = .ok cut := by
        rcases near_takeRafsi (mz := mz) (o := o) hw ho with ⟨cut', h1, h2⟩ | ⟨e, e', h1, h2, h3, h4⟩
        · rw [hcut] at h1
          cases h1
          exact h2
        · rw [hcut] at h1
          cases h1
      rw [h2]
      rcases takeRafsi_ok hcut with ⟨p, rest, he, hc, rfl⟩ | ⟨p, rest, he, hp, hc, rfl⟩ | ⟨hc, rfl⟩
      · exact kept_jvokaha2Loop ho n _ _ _ ((he ▸ hw).suffix) h
      · have hw' : Loose ((p ++ ['y']) ++ rest) := by
          have := hw
          rw [he] at this
          simpa using this
        exact kept_jvokaha2Loop ho n _ _ _ hw'.suffix h
      · cases h
        rfl

theorem kept_jvokaha2 {y : YHyphens} {mz : Bool} {w : Str} {arr : List Str} (hw : Loose w) (h : jvokaha2 y mz w = .ok arr) :
    rsJvokaha2 y mz w = .ok arr := kept_jvokaha2Loop (jvokaha2_no_ccvhy h) _ _ _ _ hw h

/-- A string with a reading can be cut. -/
theorem reading_loose {y : YHyphens} {mz : Bool} {ps : List Str} {c : Char} (hr : Reading y mz ps) (hc : ps.flatten.getLast? = some c) (hy : c ≠ 'y') :
    Loose ps.flatten := by
  refine ⟨?_, ?_, by rw [hc]; intro e; cases e; exact hy rfl⟩
  · intro d hd
    obtain ⟨p, hp, hdp⟩ := List.mem_flatten.1 hd
    rcases reading_pieces hr p hp with k | k
    · have key : ∀ p ∈ HYPHENS, ∀ d ∈ p, Vowel d ∨ Consonant d ∨ d = '\'' ∨ d = 'y' := by decide
      exact key p k d hdp
    · rcases rafsi_letters k d hdp with h | h | h
      · exact .inl h
      · exact .inr (.inl h)
      · exact .inr (.inr (.inl h))
  · intro u v e
    obtain ⟨p, hp, hr1⟩ := hr.first
    match ps, hp with
    | [], hp => cases hp
    | q :: ps, hp =>
      cases hp
      exact links_adj (no_y_adj (rafsi_no_y hr1)) hr.links 'y' 'y' ⟨u, v, by rw [e]⟩ ⟨rfl, rfl⟩

/-- What `jvokaha` of the Python version returns, that of the Rust crate returns too. -/
theorem kept_jvokaha {A : RsRest} {n : Nat} {y : YHyphens} {co : Consonants} {gl mz : Bool} {w : Str} {arr : List Str}
    (h : jvokaha (program .linked) y co gl mz w = .ok arr) (hlen : w.length < 180000) :
    rsJvokaha A (rsSlinkuhi A (n + 2)) y co gl mz w = .ok arr := by
  obtain ⟨c', l', m', hc', e', hj', hM', hA', hE', -, hd'⟩ := jvokaha_canon h
  have hread' : Reading y mz arr := by rw [e']; exact ext_reading hM' hE' hd'
  obtain ⟨h1, h2, lastPiece, c, r, hl, hlc, hg, hcmp⟩ := jvokaha_ok h
  obtain ⟨hj, hC⟩ := jvokaha2_ok h1
  have hwc : w.getLast? = some c := by
    obtain ⟨u, rfl⟩ := List.getLast?_eq_some_iff.1 hl
    obtain ⟨u', rfl⟩ := List.getLast?_eq_some_iff.1 hlc
    rw [← hj']; simp
  have hlen2 : 2 ≤ (arr.filter (fun x => x.length > 2)).length := by
    cases arr with
    | nil => cases hl
    | cons p arr =>
      have hp := rafsi_length hC.head.1.rafsi
      rw [List.filter_cons, if_pos (by simp; omega)] at h2 ⊢
      rw [List.length_cons] at h2 ⊢
      omega
  obtain ⟨l, hcan, hfst⟩ := canon_exists (kahaSettings y co gl mz) (isConsonant c) hlen2
  have hmade : Made (kahaSettings y co gl mz) (isConsonant c) l := by
    refine ⟨hcan, ?_, ?_⟩
    · intro p hp
      exact hC.filter p.1 (hfst ▸ List.mem_map.2 ⟨p, hp, rfl⟩)
    · intro p hp
      refine chop_long hC p.1 (hfst ▸ ?_)
      rw [← List.map_dropLast]
      exact List.mem_map.2 ⟨p, hp, rfl⟩
  have hd : ∀ p ∈ l, Diph p.1 := by
    intro p hp
    have : p.1 ∈ arr.filter (fun x => x.length > 2) := hfst ▸ List.mem_map.2 ⟨p, hp, rfl⟩
    exact chop_diph hC _ (List.mem_filter.1 this).1
  have hg' : getLujvoFromList (program .linked) (kahaSettings y co gl mz) (isConsonant c) ((l.map Prod.fst).map dash) = .ok r := by
    rw [hfst]; exact hg
  obtain ⟨hs, hapt⟩ := made_search hmade hg'
  have hrd := ext_reading hmade (Ext.refl y l) hd
  have hread := C37_reading_found hrd
  rw [flat_spell] at hread
  have hread : jvokaha2 y mz (spell l) = .ok (flat l) := hread
  have hcy : c ≠ 'y' := by
    rintro rfl
    obtain ⟨d, hd1, hd2⟩ := hA'.ends
    rw [hwc] at hc'
    cases hc'
    have hcons : isConsonant 'y' = false := by decide
    rw [hcons] at hd2
    obtain ⟨p, hp, hpr⟩ := hread'.last
    obtain ⟨u, hu⟩ := List.getLast?_eq_some_iff.1 hp
    have hpl : p.getLast? = some 'y' := by
      rw [hl] at hp
      cases hp
      exact hlc
    rcases rafsi_letters hpr 'y' (List.mem_of_getLast? hpl) with h | h | h <;> revert h <;> decide
  have a2 : rsJvokaha2 y mz w = .ok arr := by
    refine kept_jvokaha2 ?_ h1
    rw [← hj']
    exact reading_loose hread' (by rw [hj']; exact hwc) hcy
  unfold rsJvokaha
  rw [a2]
  simp only [bind, Except.bind]
  rw [if_neg (by rw [List.length_map]; exact h2), hl]
  simp only [rsBack_of hlc, rsIsConsonant_eq]
  have hcomp : ∀ v ∈ (l.map Prod.fst).map dash, RsComponent A (kahaSettings y co gl mz) v := by
    intro v hv
    obtain ⟨x, hx, rfl⟩ := List.mem_map.1 hv
    have := made_xs hmade x hx
    exact .rafsi ⟨letters_no_dash (rafsi_letters this), 0, 0, rfl⟩ this
  have hsize : (arr.filter (fun x => x.length > 2)).length < 60000 := by
    have h3 := filter_three arr
    have := congrArg List.length hj'
    omega
  have hsame := rs_made (n := n) (g := isConsonant c) hcomp (by rw [List.length_map, hfst]; exact hlen2)
    (by rw [List.length_map, hfst]; exact hsize)
  have hrs : rsLujvoFromList A (rsSlinkuhi A (n + 2)) (kahaSettings y co gl mz) (isConsonant c) ((l.map Prod.fst).map dash) = .ok r := by
    rcases hsame with ⟨r', hpy, hrs⟩ | ⟨hpy, hrs⟩
    · rw [hg'] at hpy
      cases hpy
      exact hrs
    · rw [hg'] at hpy
      cases hpy
  rw [hfst] at hrs
  have hrs : rsLujvoFromList A (rsSlinkuhi A (n + 2)) { yHyphens := y, consonants := co, glides := gl, allowMz := mz } (isConsonant c)
    ((arr.filter (fun x => x.length > 2)).map (fun x => s%"-" ++ x ++ s%"-")) = .ok r := hrs
  rw [hrs]
  dsimp only
  by_cases hy : y = .forceY
  · rw [if_pos hy] at hcmp
    simp [hy, hcmp]
  · rw [if_neg hy] at hcmp
    obtain ⟨corr, hc1, hc2⟩ := hcmp
    have hne : arr ≠ [] := by rintro rfl; cases hl
    obtain ⟨corr', k1, k2⟩ := recut h1 hne h2 hy hg
    rw [hc1] at k1
    cases k1
    have hloose : Loose r.1 := by
      rw [hs, ← flat_spell]
      obtain ⟨d, hd1, hd2⟩ := hapt.ends
      refine reading_loose hrd (by rw [flat_spell]; exact hd1) ?_
      rintro rfl
      split at hd2 <;> revert hd2 <;> decide
    have k3 : rsJvokaha2 .standard mz r.1 = .ok corr := kept_jvokaha2 hloose k2
    rw [if_neg hy, k3]
    dsimp only
    have hrc := rsCompareLoop_ok (mz := mz) hC.mem corr 0 true hc2
    simp only [rsComparePieces, hrc]
    rfl

end Jvotci
