import Verif.Lemmas.RsKaha
import Verif.Lemmas.ZihIff
import Verif.Props.Helpers

/-!
# The slinku'i test of the Rust crate and that of the Python version
-/

namespace Jvotci

open Spec

theorem rsJvokaha2_papa (y : YHyphens) (mz : Bool) (t : Str) :
    rsJvokaha2 y mz ('p' :: 'a' :: 'p' :: 'a' :: t) = .error .decomposition := by
  have hvow : ∀ t : Str, rsRafsiTarmi ('a' :: t) = .other := by
    intro t
    simp [rsRafsiTarmi, rsAt_zero, rsIsVowel, rsIsConsonant]
  have hsl : ∀ n (t : Str), slice ('a' :: t) 0 (n + 1) = 'a' :: t.take n := by intro n t; simp [slice]
  have hword : rafsiTarmi ('p' :: 'a' :: 'p' :: 'a' :: t) = .other := by
    match t with
    | [] => decide
    | [b] => simp [rafsiTarmi, isGismuShape, isConsonant]
    | _ :: _ :: _ => simp [rafsiTarmi]
  have h1 : rsTakeRafsi mz ('p' :: 'a' :: 'p' :: 'a' :: t) ('p' :: 'a' :: 'p' :: 'a' :: t) =
      .ok (.pieces [s%"pap"] ('a' :: t)) := by
    unfold rsTakeRafsi
    have e3 : slice ('p' :: 'a' :: 'p' :: 'a' :: t) 0 3 = s%"pap" := by simp [slice]
    have e4 : slice ('p' :: 'a' :: 'p' :: 'a' :: t) 0 4 = s%"papa" := by simp [slice]
    have e5 : slice ('p' :: 'a' :: 'p' :: 'a' :: t) 2 5 = 'p' :: 'a' :: t.take 1 := by simp [slice]
    have hban : BANNED_TRIPLES.contains ('p' :: 'a' :: t.take 1) = false := by
      simp [BANNED_TRIPLES]
    simp only [rsRafsiTarmi_safe (t := .cvccv) (by simp), rsRafsiTarmi_safe (t := .ccvcv) (by simp), hword]
    rw [e3, e4, e5, hban, show rsRafsiTarmi s%"pap" = .cvc by decide, show rsRafsiTarmi s%"papa" = .other by decide]
    simp
  have h2 : ∀ o : Str, rsTakeRafsi mz o ('a' :: t) = .error .decomposition := by
    intro o
    unfold rsTakeRafsi
    simp only [hsl 2, hsl 3, hvow]
    simp
  unfold rsJvokaha2 rsJvokaha2Loop
  rw [if_neg (by simp)]
  rw [show rsTakeHyphen y ('p' :: 'a' :: 'p' :: 'a' :: t) [] = none from rfl]
  simp only [h1, bind, Except.bind]
  unfold rsJvokaha2Loop
  have h3 : rsTakeHyphen y ('a' :: t) [s%"pap"] = none := by
    cases y <;> simp [rsTakeHyphen, rsAt_zero, slice, show rsRafsiTarmi s%"pap" = .cvc by decide]
  simp only [List.reverse_cons, List.reverse_nil, List.nil_append, List.append_nil, h3, h2, bind, Except.bind, List.length_cons]
  simp

theorem rsSlinkuhi_pa (A : RsRest) (n : Nat) (y : YHyphens) (mz : Bool) (t : Str) :
    rsSlinkuhi A (n + 1) y mz ('p' :: 'a' :: t) = .ok false := by
  unfold rsSlinkuhi rsJvokaha
  rw [show s%"pa" ++ 'p' :: 'a' :: t = 'p' :: 'a' :: 'p' :: 'a' :: t from rfl, rsJvokaha2_papa]
  rfl

theorem rsCompareLoop_ok {mz : Bool} {other : List Str}
    (ho : ∀ p ∈ other, (2 < p.length ∧ Rafsi mz p) ∨ p = s%"y" ∨ p = s%"n" ∨ p = s%"r" ∨ p = s%"'y") : ∀ (corr : List Str) (i : Nat) (t : Bool),
    comparePiecesLoop other corr i = .ok t → rsCompareLoop other corr i = .ok t
  | [], i, t, h => by cases h; rfl
  | part :: corr, i, t, h => by
    unfold comparePiecesLoop at h
    unfold rsCompareLoop
    cases hi : other[i]? with
    | none => rw [hi] at h; cases h
    | some o =>
      rw [hi] at h
      simp only at h ⊢
      by_cases hp : part = o
      · rw [if_pos hp] at h ⊢
        exact rsCompareLoop_ok ho corr (i + 1) t h
      rw [if_neg hp] at h ⊢
      have hor : o ≠ [] ∧ o ≠ s%"rn" := by
        rcases ho o (List.mem_of_getElem? hi) with ⟨h, -⟩ | h | h | h | h
        · constructor <;> rintro rfl <;> simp at h
        all_goals subst h; decide
      have hsh : ∀ q ∈ other, (decide (rsRafsiTarmi q = .ccvcv) || decide (rsRafsiTarmi q = .ccvc) || decide (rsRafsiTarmi q = .ccv)) =
          (decide (rafsiTarmi q = .ccvcv) || decide (rafsiTarmi q = .ccvc) || decide (rafsiTarmi q = .ccv)) := by
        intro q hq
        rcases ho q hq with ⟨-, h⟩ | h | h | h | h
        · rw [rsTarmi_rafsi h]
        all_goals subst h; decide
      have hrn : occursIn o s%"rn" = (decide (o = s%"r") || decide (o = s%"n")) := jsIncludes_rn hor
      have fin : ∀ k, (match other[k]? with
          | none => (.error .index : Except Err Bool)
          | some o => if part = o then comparePiecesLoop other corr (k + 1) else .ok false) = .ok t →
          (match other[k]? with
          | none => (.error .plain : Except RsErr Bool)
          | some o => if part = o then rsCompareLoop other corr (k + 1) else .ok false) = .ok t := by
        intro k h
        cases hk : other[k]? with
        | none => rw [hk] at h; cases h
        | some q =>
          rw [hk] at h
          simp only at h ⊢
          by_cases hq : part = q
          · rw [if_pos hq] at h ⊢
            exact rsCompareLoop_ok ho corr (k + 1) t h
          · rw [if_neg hq] at h ⊢
            cases h; rfl
      cases hq : other[i + 1]? with
      | none =>
        simp only [rsRafsiTarmi_safe (t := .cvv) (by simp), rsRafsiTarmi_safe (t := .cvhv) (by simp), hrn, hq] at h ⊢
        exact fin _ h
      | some q =>
        simp only [hq] at h ⊢
        simp only [hsh q (List.mem_of_getElem? hq), rsRafsiTarmi_safe (t := .cvv) (by simp), rsRafsiTarmi_safe (t := .cvhv) (by simp), hrn]
        exact fin _ h

/-- The search of the two versions, up to the slinku'i test. -/
theorem rs_list {A : RsRest} {s : Settings} (g : Bool) {vs : List Str} (hc : ∀ v ∈ vs, RsComponent A s v) (h2 : 2 ≤ vs.length) (hmax : vs.length < 200000) :
    ∃ ll best, getRafsiListList (program .linked) s vs = .ok ll ∧ searchStages (combineOpts s g) ll = .ok best ∧ ll.length = vs.length ∧
      (∀ l ∈ ll, ∀ r ∈ l, RsForm r.1) ∧
      ∀ sl, rsLujvoFromList A sl s g vs = (match pickBest g best with
        | none => .error .noLujvo
        | some r => if !g then (do if ← sl s.yHyphens s.allowMz r.1 then .error .noLujvo else .ok r) else .ok r) := by
  obtain ⟨ll, l1, l2, l3, l4⟩ := rsComponents_ok (N := vs.length) (i := 0) hc
  obtain ⟨best, hb⟩ := total_searchStages (o := combineOpts s g) (ll := ll) (by omega) (by
    intro l hl r hr
    obtain ⟨mz, x, suf, hx, e, -⟩ := l4 l hl r hr
    rw [e]
    exact solid_rafsi hx suf)
  obtain ⟨r1, r2⟩ := rs_searched (g := g) l4 (by omega) (by omega) hb
  refine ⟨ll, best, l1, hb, l3, l4, fun sl => ?_⟩
  unfold rsLujvoFromList
  rw [l2]
  simp only [bind, Except.bind, r1, r2]
  cases pickBest g best <;> cases g <;> rfl

theorem filter_three (ps : List Str) : 3 * (ps.filter (fun x => x.length > 2)).length ≤ ps.flatten.length := by
  induction ps with
  | nil => simp
  | cons p ps ih =>
    rw [List.filter_cons]
    split
    · rename_i h
      simp at h
      simp only [List.length_cons, List.flatten_cons, List.length_append]
      omega
    · simp only [List.flatten_cons, List.length_append]
      omega

theorem spell_letters {mz : Bool} {l : List (Str × Str)} (h : ∀ p ∈ l, Rafsi mz p.1 ∧ Glue p.2) :
    ∀ c ∈ spell l, Vowel c ∨ Consonant c ∨ c = '\'' ∨ c = 'y' := by
  intro c hc
  unfold spell at hc
  obtain ⟨u, hu, hcu⟩ := List.mem_flatten.1 hc
  obtain ⟨p, hp, rfl⟩ := List.mem_map.1 hu
  obtain ⟨h1, h2⟩ := h p hp
  rcases List.mem_append.1 hcu with h | h
  · rcases rafsi_letters h1 c h with h | h | h
    · exact .inl h
    · exact .inr (.inl h)
    · exact .inr (.inr (.inl h))
  · rcases h2 with e | e | e | e | e <;> rw [e] at h <;> simp at h
    · exact .inr (.inr (.inr h))
    · rcases h with rfl | rfl <;> simp
    · subst h; exact .inr (.inl (by decide))
    · subst h; exact .inr (.inl (by decide))

theorem madeOk_no_yy {w : Str} (h : AdjAll MadeOk w) (u v : Str) : w ≠ u ++ 'y' :: 'y' :: v := by
  rintro rfl
  have := (adjAll_append.1 h).2.1
  have := (adjAll_cons.1 this).1
  exact absurd (this.2 rfl) (by decide)

theorem near_jvokaha {A : RsRest} {n : Nat} {y : YHyphens} {co : Consonants} {gl mz : Bool} {t : Str} {c : Char}
    (hw : Cuttable ('p' :: 'a' :: t)) (hwc : ('p' :: 'a' :: t).getLast? = some c) (hv : Vowel c) (hlen : t.length < 599998) :
    Near (jvokaha (program .linked) y co gl mz ('p' :: 'a' :: t)) (rsJvokaha A (rsSlinkuhi A (n + 1)) y co gl mz ('p' :: 'a' :: t)) := by
  generalize ew : 'p' :: 'a' :: t = w at hw hwc
  have hccv : ∀ v : Str, v.take 2 = s%"pa" → rafsiTarmi (slice v 0 3) ≠ .ccv := by
    intro v hv h
    obtain ⟨_, _, _, e, -, hb, -⟩ := tarmi_ccv.1 h
    match v, hv with
    | [], hv => simp at hv
    | [_], hv => simp at hv
    | a :: b :: v, hv =>
      simp at hv
      obtain ⟨rfl, rfl⟩ := hv
      simp [slice] at e
      rw [← e.2.1] at hb
      revert hb; decide
  have hw2 : w.take 2 = s%"pa" := by rw [← ew]; rfl
  unfold jvokaha rsJvokaha
  rcases (near_jvokaha2 (y := y) (mz := mz) hw (fun h => absurd h (hccv w hw2))).symm with ⟨e, e', h1, h2, h3, h4⟩ | ⟨arr, a1, a2⟩
  · rw [h1, h2]
    exact .err h3 h4
  rw [a1, a2]
  simp only [bind, Except.bind]
  by_cases h2 : ((arr.filter (fun x => x.length > 2)).map (fun x => s%"-" ++ x ++ s%"-")).length = 1
  · rw [if_pos h2, if_pos h2]
    exact .err (.inl rfl) (.inl rfl)
  rw [if_neg h2, if_neg h2]
  obtain ⟨hj, hC⟩ := jvokaha2_ok a1
  rw [List.length_map] at h2
  have hne : arr ≠ [] := by
    rintro rfl
    rw [← ew] at hj
    cases hj
  have hlast : ∃ p, arr.getLast? = some p ∧ p.getLast? = some c := by
    cases hp : arr.getLast? with
    | none => simp at hp; exact absurd hp hne
    | some p =>
      obtain ⟨u, rfl⟩ := List.getLast?_eq_some_iff.1 hp
      refine ⟨p, rfl, ?_⟩
      have hpn : p ≠ [] := by
        have := hC.mem p (by simp)
        rcases this with ⟨_, h⟩ | h | h | h | h
        · exact rafsi_ne h
        all_goals subst h; simp
      have e : join (u ++ [p]) = u.flatten ++ p := by simp [join]
      rw [← hj, e, List.getLast?_append] at hwc
      cases hg : p.getLast? with
      | none => simp at hg; exact absurd hg hpn
      | some d => rw [hg] at hwc; simpa using hwc
  obtain ⟨p, hp, hpc⟩ := hlast
  rw [hp]
  have hcc : isConsonant c = false := not_consonant_of_vowel ((isVowel_iff c).2 hv)
  simp only [idxLast, hpc, rsBack_of hpc, rsIsConsonant_eq, hcc]
  have hlen2 : 2 ≤ (arr.filter (fun x => x.length > 2)).length := by
    cases arr with
    | nil => exact absurd rfl hne
    | cons p arr =>
      have hp := rafsi_length hC.head.1.rafsi
      rw [List.filter_cons, if_pos (by simp; omega)] at h2 ⊢
      rw [List.length_cons] at h2 ⊢
      omega
  obtain ⟨l, hcan, hfst⟩ := canon_exists (kahaSettings y co gl mz) false hlen2
  have hmade : Made (kahaSettings y co gl mz) false l := by
    refine ⟨hcan, ?_, ?_⟩
    · intro p hp
      exact hC.filter p.1 (hfst ▸ List.mem_map.2 ⟨p, hp, rfl⟩)
    · intro p hp
      refine chop_long hC p.1 (hfst ▸ ?_)
      rw [← List.map_dropLast]
      exact List.mem_map.2 ⟨p, hp, rfl⟩
  have hd : ∀ p ∈ l, Diph p.1 := by
    intro p hp
    have : p.1 ∈ arr.filter (fun x => x.length > 2) := hfst ▸ List.mem_map.2 ⟨p, hp, rfl⟩
    exact chop_diph hC _ (List.mem_filter.1 this).1
  have hread := C37_reading_found (ext_reading hmade (Ext.refl y l) hd)
  rw [flat_spell] at hread
  have hfirst : (spell l).take 3 = w.take 3 := by
    cases arr with
    | nil => exact absurd rfl hne
    | cons q arr =>
      have hq := rafsi_length hC.head.1.rafsi
      rw [List.filter_cons, if_pos (by simp; omega)] at hfst
      cases l with
      | nil => cases hfst
      | cons a l =>
        obtain ⟨x, h⟩ := a
        simp only [List.map_cons, List.cons.injEq] at hfst
        rw [← hj, show spell ((x, h) :: l) = x ++ (h ++ spell l) by simp [spell], show join (q :: arr) = q ++ join arr from rfl, hfst.1,
          List.take_append_of_le_length (by omega), List.take_append_of_le_length (by omega)]
  have hend : (spell l).getLast? = some c := by
    obtain ⟨u, x, e⟩ := canon_end hmade.canon
    have hxp : x = p := by
      obtain ⟨u', e'⟩ := List.getLast?_eq_some_iff.1 hp
      have hp2 : 2 < p.length := by
        have := hC.mem p (by rw [e']; simp)
        rcases this with ⟨_, h⟩ | h | h | h | h
        · have := rafsi_length h; omega
        all_goals
          subst h
          simp at hpc
          subst hpc
          revert hv; decide
      rw [e', List.filter_append, List.filter_cons_of_pos (by simpa using hp2), e] at hfst
      simp at hfst
      exact hfst.2
    subst hxp
    rw [e, spell]
    simp only [List.map_append, List.flatten_append, List.map_cons, List.map_nil, List.append_nil, List.flatten_cons, List.flatten_nil]
    rw [List.getLast?_append, hpc]
    rfl
  have hpa : ∃ v, spell l = 'p' :: 'a' :: v := by
    rw [← ew] at hfirst
    match spell l, hfirst with
    | [], h => simp at h
    | [_], h => simp at h
    | a :: b :: v, h =>
      simp at h
      obtain ⟨rfl, rfl, -⟩ := h
      exact ⟨v, rfl⟩
  have hcomp : ∀ v ∈ (l.map Prod.fst).map dash, RsComponent A (kahaSettings y co gl mz) v := by
    intro v hv
    obtain ⟨x, hx, rfl⟩ := List.mem_map.1 hv
    have := made_xs hmade x hx
    exact .rafsi ⟨letters_no_dash (rafsi_letters this), 0, 0, rfl⟩ this
  have hjl : join arr = arr.flatten := rfl
  have hsize : (arr.filter (fun x => x.length > 2)).length < 200000 := by
    have h3 := filter_three arr
    have := congrArg List.length hj
    rw [hjl, ← ew] at this
    simp only [List.length_cons] at this
    omega
  obtain ⟨ll, best, l1, l2, l3, l4, l5⟩ := rs_list false hcomp (by rw [List.length_map, hfst]; exact hlen2) (by rw [List.length_map, hfst]; exact hsize)
  have el : (l.map Prod.fst).map dash = (arr.filter (fun x => x.length > 2)).map (fun x => s%"-" ++ x ++ s%"-") := by rw [hfst]; rfl
  have P : ∀ r, pickBest false best = some r → r.1 = spell l := by
    intro r hr
    obtain ⟨h1, h2⟩ := search_built l1 l2 hr
    exact (made_best hmade (made_fine hmade h1)).2 _ _ h1 h2
  have hpy : getLujvoFromList (program .linked) (kahaSettings y co gl mz) false ((l.map Prod.fst).map dash) =
      (match pickBest false best with | none => .error .noLujvo | some r => .ok r) := by
    unfold getLujvoFromList
    rw [l1, ok_bind, l2, ok_bind]
    cases hq : pickBest false best with
    | none => rfl
    | some r =>
      have := canon_not_slinkuhi hmade ⟨c, hend, hv⟩
      rw [← P r hq] at this
      simp only [Bool.not_false, if_true, slinkuhiInJvozba, program_build, this]
      rfl
  have hrs : rsLujvoFromList A (rsSlinkuhi A (n + 1)) (kahaSettings y co gl mz) false ((l.map Prod.fst).map dash) =
      (match pickBest false best with | none => .error .noLujvo | some r => .ok r) := by
    rw [l5]
    cases hq : pickBest false best with
    | none => rfl
    | some r =>
      obtain ⟨v, hv⟩ := hpa
      simp only [Bool.not_false, if_true, P r hq, hv, rsSlinkuhi_pa]
      rfl
  rw [el] at hpy hrs
  simp only [kahaSettings] at hpy hrs
  rw [hpy, hrs]
  cases hq : pickBest false best with
  | none => exact .err (.inl rfl) (.inl rfl)
  | some r =>
    have e := P r hq
    have hgood : ∀ good : Bool, Near (if good = true then Except.ok arr else .error .decomposition) (if good = true then Except.ok arr else .error .decomposition) := by
      intro good
      cases good
      · exact .err (.inl rfl) (.inl rfl)
      · exact .ok _
    by_cases hy : y = .forceY
    · simp only [if_pos hy]
      exact hgood _
    · simp only [if_neg hy]
      have hpy' : getLujvoFromList (program .linked) (kahaSettings y co gl mz) false ((arr.filter (fun x => x.length > 2)).map (fun x => s%"-" ++ x ++ s%"-")) = .ok r := by
        simp only [kahaSettings]
        rw [hpy, hq]
      obtain ⟨corr, k1, k2⟩ := recut a1 hne h2 hy hpy'
      have hgl := canon_glue hmade.canon
      have hcut : Cuttable r.1 := by
        refine ⟨?_, ?_, ?_⟩
        · rw [e]
          exact spell_letters fun p hp => ⟨hmade.rafsi p hp, hgl p hp⟩
        · exact madeOk_no_yy (getLujvoFromList_made (fun x hx => hC.filter x hx) hpy').1
        · rw [e, hend]
          constructor <;> intro h <;> cases h <;> revert hv <;> decide
      have k3 : rsJvokaha2 .standard mz r.1 = .ok corr := by
        rcases near_jvokaha2 (y := .standard) (mz := mz) hcut (fun h => absurd h (hccv r.1 (by
          obtain ⟨v, hv⟩ := hpa
          rw [e, hv]; rfl))) with ⟨a, b1, b2⟩ | ⟨_, _, b1, -⟩
        · rw [k2] at b1
          cases b1
          exact b2
        · rw [k2] at b1
          cases b1
      rw [k1, k3]
      have hcorr : corr = flat l := by
        have h : jvokaha2 y mz (spell l) = .ok (flat l) := hread
        rw [← e, k1] at h
        cases h; rfl
      obtain ⟨t, ht⟩ := compare_safe (other := arr) (flat l) 0 (by
        rw [List.drop_zero, flat_rafsi (mz := mz) fun p hp => ⟨hmade.rafsi p hp, hgl p hp⟩]
        exact hfst.symm) (by
        intro p hp
        obtain ⟨u, x, e⟩ := canon_end hmade.canon
        rw [flat_last e] at hp
        cases hp
        have := rafsi_length (hmade.rafsi (p, []) (by rw [e]; simp))
        dsimp only at this
        omega)
      have hrc := rsCompareLoop_ok (mz := mz) hC.mem (flat l) 0 t ht
      simp only [compareLujvoPieces, rsComparePieces, hcorr, ht, hrc]
      exact hgood _

theorem Cuttable.pa {w : Str} (h : Cuttable w) (hne : w ≠ []) : Cuttable ('p' :: 'a' :: w) := by
  refine ⟨?_, ?_, ?_⟩
  · intro c hc
    simp only [List.mem_cons] at hc
    rcases hc with rfl | rfl | hc
    · exact .inr (.inl (by decide))
    · exact .inl (by decide)
    · exact h.letters c hc
  · intro u v e
    match u with
    | [] => simp at e
    | [_] => simp at e
    | _ :: _ :: u =>
      simp at e
      exact h.yy u v e.2.2
  · have : ('p' :: 'a' :: w).getLast? = w.getLast? := by
      rw [show 'p' :: 'a' :: w = s%"pa" ++ w from rfl, getLast?_append_ne _ hne]
    rw [this]
    exact h.last

/-- For the words in question, both versions say the same about slinku'i. -/
theorem rs_slinkuhi {A : RsRest} {n : Nat} {y : YHyphens} {mz : Bool} {a c : Char} {t : Str} (hw : Cuttable (a :: t)) (ha : Consonant a)
    (hc : (a :: t).getLast? = some c) (hv : Vowel c) (hlen : t.length < 599997) :
    ∃ b, (program .linked).slinkuhi y mz (a :: t) = .ok b ∧ rsSlinkuhi A (n + 2) y mz (a :: t) = .ok b := by
  have hto : (s%"to" ++ a :: t).getLast? = some c := by rw [getLast?_append_ne _ (by simp), hc]
  have hpa : (s%"pa" ++ a :: t).getLast? = some c := by rw [getLast?_append_ne _ (by simp), hc]
  have hbig : (a :: t).length < 10 ^ 95 := by simp only [List.length_cons]; omega
  have hiff : (∃ ps, jvokaha (program .linked) y .cluster false mz (s%"to" ++ a :: t) = .ok ps) ↔
      ∃ ps, jvokaha (program .linked) y .cluster false mz (s%"pa" ++ a :: t) = .ok ps := by
    have h1 := jvokaha_lujvo (s := kahaSettings y .cluster false mz) ⟨c, hto, hv⟩ (by simp only [List.length_append, List.length_cons]; simp; omega)
    have h2 := jvokaha_lujvo (s := kahaSettings y .cluster false mz) ⟨c, hpa, hv⟩ (by simp only [List.length_append, List.length_cons]; simp; omega)
    have h3 := C69_any_cmavo (s := kahaSettings y .cluster false mz) (w := t) ha (a := 't') (v := 'o') (a' := 'p') (v' := 'a') (by decide) (by decide)
      (by decide) (by decide)
    exact h1.trans (h3.trans h2.symm)
  have hvow : isVowel a = false := not_vowel_of_consonant ((isConsonant_iff a).2 ha)
  have hcau : Errs caughtErrs (jvokaha (program .linked) y .cluster false mz (s%"to" ++ a :: t)) := by
    refine jvokaha_caught hto (.inl hv) (caught_jvokaha2 ?_ ?_)
    · intro h
      exfalso
      obtain ⟨_, _, _, e, -, hb, -⟩ := tarmi_ccv.1 h
      simp [slice] at e
      rw [← e.2.1] at hb
      revert hb; decide
    · rw [hto]
      intro e; cases e
      revert hv; decide
  have hnear := near_jvokaha (A := A) (n := n) (y := y) (co := .cluster) (gl := false) (mz := mz) (hw.pa (by simp)) hpa hv (by simp only [List.length_cons]; omega)
  rw [slinkuhi_program]
  unfold isSlinkuhi rsSlinkuhi
  rw [show idx (a :: t) 0 = .ok a from rfl, ok_bind, if_neg (by simp [hvow]), rsAt_zero, rsIsVowel_eq, if_neg (by simp [hvow])]
  rw [show s%"pa" ++ a :: t = 'p' :: 'a' :: a :: t from rfl] at hiff ⊢
  rcases hnear with ⟨arr, h1, h2⟩ | ⟨e, e', h1, h2, h3, h4⟩
  · obtain ⟨ps, hps⟩ := hiff.2 ⟨arr, h1⟩
    rw [hps, h2]
    exact ⟨true, rfl, rfl⟩
  · rw [h2]
    refine ⟨false, ?_, by rcases h4 with rfl | rfl <;> rfl⟩
    cases hk : jvokaha (program .linked) y .cluster false mz (s%"to" ++ a :: t) with
    | ok ps =>
      obtain ⟨ps', h⟩ := hiff.1 ⟨ps, hk⟩
      rw [h1] at h
      cases h
    | error e =>
      have := hcau e hk
      simp [caughtErrs] at this
      rcases this with rfl | rfl <;> rfl

/-! ## The words the search makes -/

/-- What is known of a candidate: its letters, its first letter, no `yy`, and its length. -/
structure RsWord (w : Str) (k : Nat) : Prop where
  letters : ∀ c ∈ w, Vowel c ∨ Consonant c ∨ c = '\'' ∨ c = 'y'
  first : ∃ a t, w = a :: t ∧ Consonant a
  yy : AdjAll (fun a b => ¬ (a = 'y' ∧ b = 'y')) w
  size : w.length ≤ 9 * k

theorem RsForm.word {w : Str} (h : RsForm w) : RsWord w 1 := by
  have hl := h.length
  have hh := h.head
  obtain ⟨mz, x, suf, hx, rfl, hs⟩ := h
  have hxl := rafsi_letters hx
  refine ⟨?_, hh, ?_, by omega⟩
  · intro c hc
    rcases List.mem_append.1 hc with hc | hc
    · rcases hxl c hc with h | h | h
      · exact .inl h
      · exact .inr (.inl h)
      · exact .inr (.inr (.inl h))
    · rcases hs with rfl | rfl | rfl | ⟨rfl, -⟩ <;> simp at hc
      · subst hc; simp
      · rcases hc with rfl | rfl <;> simp
      · subst hc; simp
  · have hy : ∀ c ∈ x, c ≠ 'y' := by
      rintro c hc rfl
      rcases hxl _ hc with h | h | h <;> revert h <;> decide
    refine adjAll_append.2 ⟨?_, ?_, ?_⟩
    · have : ∀ x : Str, (∀ c ∈ x, c ≠ 'y') → AdjAll (fun a b => ¬ (a = 'y' ∧ b = 'y')) x := by
        intro x
        induction x with
        | nil => intro _; exact adjAll_nil
        | cons a x ih =>
          intro h
          cases x with
          | nil => exact adjAll_single
          | cons b x => exact adjAll_cons.2 ⟨fun e => h a (by simp) e.1, ih fun c hc => h c (by simp [hc])⟩
      exact this x hy
    · rcases hs with rfl | rfl | rfl | ⟨rfl, -⟩
      · exact adjAll_nil
      · exact adjAll_single
      · exact adjAll_cons.2 ⟨by decide, adjAll_single⟩
      · exact adjAll_single
    · intro a b ha _ e
      exact hy a (getLast_mem ha) e.1

theorem RsWord.join {u w h : Str} {j : Nat} {last : Char} (hu : RsWord u j) (hw : RsForm w) (hl : u.getLast? = some last)
    (hh : h = [] ∨ h = s%"'y" ∨ h = s%"n" ∨ h = s%"r" ∨ h = s%"y" ∧ last = '\'') : RsWord (u ++ h ++ w) (j + 1) := by
  have hlen := hw.length
  obtain ⟨b, t, ew, hb⟩ := hw.head
  have hw := hw.word
  have hby : b ≠ 'y' := by rintro rfl; revert hb; decide
  have hadj : AdjAll (fun a b => ¬ (a = 'y' ∧ b = 'y')) (h ++ w) := by
    refine adjAll_append.2 ⟨?_, hw.yy, ?_⟩
    · rcases hh with rfl | rfl | rfl | rfl | ⟨rfl, -⟩
      · exact adjAll_nil
      · exact adjAll_cons.2 ⟨by decide, adjAll_single⟩
      · exact adjAll_single
      · exact adjAll_single
      · exact adjAll_single
    · intro a b' _ hb' e
      rw [ew] at hb'
      simp at hb'
      exact hby (hb'.trans e.2)
  obtain ⟨a, u', eu, ha⟩ := hu.first
  refine ⟨?_, ⟨a, u' ++ h ++ w, by rw [eu]; simp, ha⟩, ?_, ?_⟩
  · intro c hc
    simp only [List.mem_append] at hc
    rcases hc with (hc | hc) | hc
    · exact hu.letters c hc
    · rcases hh with rfl | rfl | rfl | rfl | ⟨rfl, -⟩ <;> simp at hc
      · rcases hc with rfl | rfl <;> simp
      · subst hc; exact .inr (.inl (by decide))
      · subst hc; exact .inr (.inl (by decide))
      · subst hc; simp
    · exact hw.letters c hc
  · rw [List.append_assoc]
    refine adjAll_append.2 ⟨hu.yy, hadj, ?_⟩
    intro a b' ha' hb' e
    rw [hl] at ha'
    cases ha'
    rcases hh with rfl | rfl | rfl | rfl | ⟨rfl, h5⟩
    · rw [ew] at hb'
      simp at hb'
      exact hby (hb'.trans e.2)
    · simp at hb'; rw [e.2] at hb'; revert hb'; decide
    · simp at hb'; rw [e.2] at hb'; revert hb'; decide
    · simp at hb'; rw [e.2] at hb'; revert hb'; decide
    · rw [e.1] at h5; revert h5; decide
  · have : h.length ≤ 2 := by rcases hh with rfl | rfl | rfl | rfl | ⟨rfl, -⟩ <;> decide
    have := hu.size
    simp only [List.length_append]
    omega

theorem hyphen_kinds {o : CombineOpts} {lujvo : Str} {last first : Char} {t : Tarmi} {h : Str} (hc : chooseHyphen o lujvo last first t = some h) :
    h = [] ∨ h = s%"'y" ∨ h = s%"n" ∨ h = s%"r" ∨ h = s%"y" ∧ last = '\'' := by
  rcases chooseHyphen_cases hc with ⟨h1, h2⟩ | ⟨-, h2⟩ | ⟨-, -, -, -, ⟨h2, -⟩ | ⟨h2, -⟩ | ⟨h2, -⟩⟩ <;> simp [*]

theorem built_word {o : CombineOpts} {N : Nat} {rs : List RafsiOpt} {c : Cand} (h : Built o N rs c) :
    (∀ r ∈ rs, RsForm r.1) → RsWord c.lujvo rs.length := by
  induction h with
  | @two r0 r1 _ h =>
    intro hf
    obtain ⟨_, _, hy, _, hl, _, _, _, _, _, _, hc, _, _, _, _, e, _⟩ := combine_some h
    rw [e]
    exact (hf r0 (by simp)).word.join (hf r1 (by simp)) hl (hyphen_kinds hc)
  | @more rs r _ _ _ h ih =>
    intro hf
    obtain ⟨_, _, hy, _, hl, _, _, _, _, _, _, hc, _, _, _, _, e, _⟩ := combine_some h
    rw [e, List.length_append]
    exact (ih fun r hr => hf r (by simp [hr])).join (hf r (by simp)) hl (hyphen_kinds hc)

/-- The word that is picked, when a brivla is asked for. -/
theorem picked_word {o : CombineOpts} {ll : List (List RafsiOpt)} {b : Best} {r : Str × Int × List (Nat × Nat)}
    (hf : ∀ l ∈ ll, ∀ r ∈ l, RsForm r.1) (hb : searchStages o ll = .ok b) (hr : pickBest false b = some r) :
    ∃ a t c, r.1 = a :: t ∧ Cuttable r.1 ∧ Consonant a ∧ r.1.getLast? = some c ∧ Vowel c ∧ r.1.length ≤ 9 * ll.length := by
  obtain ⟨l, hm, hl⟩ := pickBest_mem hr
  obtain ⟨rs, c, hp, hbt, l', hl', e⟩ := searchStages_sound hb _ hm
  simp only [Prod.mk.injEq] at e
  obtain ⟨⟨-, -, rfl⟩, rfl⟩ := e
  have hlen := picks_length hp
  have hw := built_word hbt fun r hr => by
    obtain ⟨l, hl, hrl⟩ := picks_mem hp r hr
    exact hf l hl r hrl
  obtain ⟨a, t, e, ha⟩ := hw.first
  have hv : Vowel l := by
    rcases hl with ⟨hl, -⟩ | ⟨-, hl⟩
    · exact (isVowel_iff l).1 hl
    · cases hl
  refine ⟨a, t, l, e, ⟨hw.letters, ?_, ?_⟩, ha, hl', hv, by have := hw.size; rw [hlen]; exact this⟩
  · intro u v e
    exact hw.yy 'y' 'y' ⟨u, v, e⟩ ⟨rfl, rfl⟩
  · rw [hl']
    constructor <;> (intro e; cases e; revert hv; decide)

/-- From the same components both versions make the same word, or neither makes one. -/
theorem rs_made {A : RsRest} {n : Nat} {s : Settings} {g : Bool} {vs : List Str} (hc : ∀ v ∈ vs, RsComponent A s v) (h2 : 2 ≤ vs.length)
    (hmax : vs.length < 60000) :
    (∃ r, getLujvoFromList (program .linked) s g vs = .ok r ∧ rsLujvoFromList A (rsSlinkuhi A (n + 2)) s g vs = .ok r) ∨
      (getLujvoFromList (program .linked) s g vs = .error .noLujvo ∧ rsLujvoFromList A (rsSlinkuhi A (n + 2)) s g vs = .error .noLujvo) := by
  obtain ⟨ll, best, l1, l2, l3, l4, l5⟩ := rs_list g hc h2 (by omega)
  rw [l5]
  unfold getLujvoFromList
  rw [l1, ok_bind, l2, ok_bind]
  cases hp : pickBest g best with
  | none => exact .inr ⟨rfl, rfl⟩
  | some r =>
    cases g with
    | true => exact .inl ⟨r, rfl, rfl⟩
    | false =>
      obtain ⟨a, t, c, e, hw, ha, hl, hv, hlen⟩ := picked_word l4 l2 hp
      rw [e] at hw hl
      have : (a :: t).length ≤ 9 * ll.length := by rw [← e]; exact hlen
      simp only [List.length_cons] at this
      obtain ⟨b, b1, b2⟩ := rs_slinkuhi (A := A) (n := n) (y := s.yHyphens) (mz := s.allowMz) hw ha hl hv (by omega)
      rw [← e] at b1 b2
      have b3 : slinkuhiInJvozba (program .linked) s.yHyphens s.allowMz r.1 = .ok b := by
        unfold slinkuhiInJvozba
        rw [program_build]
        exact b1
      simp only [b2, b3]
      cases b
      · exact .inl ⟨r, rfl, rfl⟩
      · exact .inr ⟨rfl, rfl⟩

end Jvotci
