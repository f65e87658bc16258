import Verif.Lemmas.Whole

/-!
# Helper lemmas: a lujvo in canonical form is not a slinku'i
-/

namespace Jvotci

open Spec

/-! ## Exceptions of `jvokaha` on a word that ends in a vowel -/

/-- The exceptions `is_slinkuhi` and `is_gismu_or_lujvo` catch. -/
def caughtErrs : List Err := [.decomposition, .invalidCluster]

theorem caught_takeHyphen {y : YHyphens} {l : Str} {res : List Str} (hl : l.getLast? ≠ some 'r') :
    Errs caughtErrs (takeHyphen y l res) := by
  unfold takeHyphen
  split
  · exact .ok
  · refine .ite (fun _ => .ok) fun _ => ?_
    split
    · exact .ok
    · refine .ite (fun _ => .ok) fun _ => .bind ?_ fun _ _ => .ite (fun _ => .ok) fun _ => .ite (fun _ => .ok) fun _ => .ok
      refine .ite (fun _ => .ite (fun _ => .ok) fun _ => .ite (fun hr => ?_) fun _ => .ok) fun _ => .ok
      split
      · subst hr; exact absurd rfl hl
      · exact .ok

theorem caught_takeRafsi {mz : Bool} {o l : Str} (h : l = o → rafsiTarmi (slice o 0 3) = .ccv → slice o 3 5 ≠ s%"'y") :
    Errs caughtErrs (takeRafsi mz o l) := by
  unfold takeRafsi
  refine .ite (fun _ => .ok) fun _ => .ite (fun _ => .ok) fun _ => .ite (fun _ => .err (by decide)) fun _ =>
    .ite (fun _ => .ok) fun _ => .ite (fun _ => .ok) fun _ => .ite (fun _ => .ite (fun _ => .err (by decide)) fun _ => .ok)
    fun _ => .ite (fun hc => .ite (fun _ => .err (by decide)) fun _ => .ite (fun ho => ?_) fun _ => .ok)
    fun _ => .err (by decide)
  obtain ⟨rfl, h3⟩ := ho
  exact absurd h3 (h rfl hc)

theorem getLast_suffix {p rest l : Str} (h : l = p ++ rest) (hl : l.getLast? ≠ some 'r') : rest.getLast? ≠ some 'r' := by
  subst h
  intro e
  rw [List.getLast?_append, e] at hl
  simp at hl

theorem caught_jvokaha2Loop {y : YHyphens} {mz : Bool} {orig : Str}
    (h : rafsiTarmi (slice orig 0 3) = .ccv → slice orig 3 5 ≠ s%"'y") : ∀ {fuel : Nat} {l : Str} {res : List Str},
    l.length < fuel → l.getLast? ≠ some 'r' → Errs caughtErrs (jvokaha2Loop y mz orig fuel l res) := by
  intro fuel
  induction fuel with
  | zero => intro l res h; omega
  | succ fuel ih =>
    intro l res hl hlr
    unfold jvokaha2Loop
    refine .ite (fun _ => .ok) fun hne => .bind (caught_takeHyphen hlr) fun o ho => ?_
    have hpos : 0 < l.length := by
      cases l with
      | nil => exact absurd rfl hne
      | cons => simp
    split
    · rename_i hy
      obtain ⟨p, ps, rfl, hp, hcase⟩ := takeHyphen_some ho
      apply ih
      · have : 0 < hy.length := by
          rcases hcase with ⟨rfl, _⟩ | ⟨rfl, _⟩ | ⟨rfl, _⟩ | ⟨rfl, _⟩ <;> simp
        rw [List.length_drop]
        omega
      · exact getLast_suffix (List.take_append_drop hy.length l).symm hlr
    · refine .bind (caught_takeRafsi fun _ => h) fun cut hcut => ?_
      rcases takeRafsi_ok hcut with ⟨p, rest, he, hc, rfl⟩ | ⟨p, rest, he, hp, hc, rfl⟩ | ⟨hc, rfl⟩
      · dsimp only
        apply ih
        · have := congrArg List.length he
          rw [List.length_append] at this
          have := hc.length_pos
          omega
        · exact getLast_suffix he hlr
      · dsimp only
        apply ih
        · have := congrArg List.length he
          simp only [List.length_append, List.length_cons] at this
          have := hc.length_pos
          omega
        · exact getLast_suffix (p := p ++ ['y']) (by rw [he]; simp) hlr
      · exact .ok

theorem caught_jvokaha2 {y : YHyphens} {mz : Bool} {w : Str}
    (h : rafsiTarmi (slice w 0 3) = .ccv → slice w 3 5 ≠ s%"'y") (hl : w.getLast? ≠ some 'r') :
    Errs caughtErrs (jvokaha2 y mz w) := caught_jvokaha2Loop h (by omega) hl

theorem skip_cases {b : Bool} {i j : Nat} (h : (if b = true then i + 1 else i) = j) : (b = true ∧ j = i + 1) ∨ j = i := by
  cases b
  · exact .inr h.symm
  · exact .inl ⟨rfl, h.symm⟩

theorem compare_safe {other : List Str} : ∀ (corr : List Str) (i : Nat),
    (other.drop i).filter (fun x => x.length > 2) = corr.filter (fun x => x.length > 2) →
    (∀ p, corr.getLast? = some p → 2 < p.length) → ∃ t, comparePiecesLoop other corr i = .ok t := by
  intro corr
  induction corr with
  | nil => intro i _ _; exact ⟨_, rfl⟩
  | cons part corr ih =>
    intro i hf hl
    have hl' : ∀ p, corr.getLast? = some p → 2 < p.length := by
      intro p hp
      refine hl p ?_
      cases corr with
      | nil => cases hp
      | cons => simpa using hp
    have cancel : ∀ {o : Str} {a b : List Str}, (o :: a).filter (fun x : Str => x.length > 2) = (o :: b).filter (fun x => x.length > 2) →
        a.filter (fun x => x.length > 2) = b.filter (fun x => x.length > 2) := by
      intro o a b h
      rw [List.filter_cons, List.filter_cons] at h
      split at h
      · simpa using h
      · exact h
    unfold comparePiecesLoop
    cases ho : other[i]? with
    | none =>
      exfalso
      have : other.drop i = [] := by
        rw [List.getElem?_eq_none_iff] at ho
        exact List.drop_eq_nil_iff.2 ho
      rw [this] at hf
      obtain ⟨p, hp⟩ : ∃ p, (part :: corr).getLast? = some p := by
        cases h : (part :: corr).getLast? with
        | none => simp at h
        | some p => exact ⟨p, rfl⟩
      have : p ∈ (part :: corr).filter (fun x => x.length > 2) :=
        List.mem_filter.2 ⟨List.mem_of_getLast? hp, by simpa using hl p hp⟩
      rw [← hf] at this
      cases this
    | some o =>
      have hdrop : other.drop i = o :: other.drop (i + 1) := by
        obtain ⟨hi, e⟩ := List.getElem?_eq_some_iff.1 ho
        rw [List.drop_eq_getElem_cons hi, e]
      dsimp only
      by_cases hp : part = o
      · rw [if_pos hp]
        subst hp
        rw [hdrop] at hf
        exact ih _ (cancel hf) hl'
      · rw [if_neg hp]
        generalize hk : (if (_ : Bool) = true then i + 1 else i) = j
        rcases skip_cases hk with ⟨hskip, rfl⟩ | rfl
        · simp only [Bool.and_eq_true, decide_eq_true_eq, Bool.or_eq_true] at hskip
          obtain ⟨⟨⟨⟨-, hlt⟩, horn⟩, -⟩, -⟩ := hskip
          have hdrop2 : other.drop (i + 1) = other[i + 1] :: other.drop (i + 1 + 1) := List.drop_eq_getElem_cons hlt
          rw [List.getElem?_eq_getElem hlt]
          dsimp only
          split
          · rename_i hp2
            refine ih _ ?_ hl'
            have ho2 : ¬ (decide (o.length > 2) = true) := by rcases horn with rfl | rfl <;> simp
            rw [hdrop, hdrop2, ← hp2, List.filter_cons_of_neg (p := fun x : Str => decide (x.length > 2)) ho2] at hf
            exact cancel hf
          · exact ⟨_, rfl⟩
        · rw [ho]
          dsimp only
          rw [if_neg hp]
          exact ⟨_, rfl⟩

/-- The search on rafsi that can be put together finds something or nothing, but raises nothing else. -/
theorem made_errs {b : Build} {s : Settings} {g : Bool} {l : List (Str × Str)} (h : Made s g l)
    (hsl : g = false → b = .linked ∧ ∃ t, (program b).slinkuhi s.yHyphens s.allowMz (spell l) = .ok t) :
    Errs [.noLujvo] (getLujvoFromList (program b) s g ((l.map Prod.fst).map dash)) := by
  intro e hr
  have hxs := made_xs h
  unfold getLujvoFromList getRafsiListList at hr
  rw [show (l.map Prod.fst).map dash = (l.map Prod.fst).map (fun x => s%"-" ++ x ++ s%"-") from rfl, rafsiListListFrom_cll hxs] at hr
  have h2 : 2 ≤ (l.map Prod.fst).length := by
    cases h.canon with
    | mk => simp
  obtain ⟨best, hbest⟩ := total_searchStages (o := combineOpts s g) (ll := (l.map Prod.fst).mapIdx (fun j x => cllForms x (rafsiTarmi x) (0 + j == 0)
      (0 + j + 1 == ((l.map Prod.fst).map (fun x => s%"-" ++ x ++ s%"-")).length) s.consonants)) (by simpa using h2) (by
    intro fs hfs r hr
    rw [List.mem_mapIdx] at hfs
    obtain ⟨i, hi, rfl⟩ := hfs
    have hx := hxs _ (List.getElem_mem hi)
    generalize (l.map Prod.fst)[i] = x at hr hx
    have := cllForms_text hr
    obtain ⟨u, hu⟩ := this
    rw [hu]
    exact solid_rafsi hx u)
  simp only [bind, Except.bind, hbest] at hr
  split at hr
  · cases hr; simp
  · rename_i r hpick
    cases g with
    | true => cases hr
    | false =>
      obtain ⟨rfl, t, hsl⟩ := hsl rfl
      obtain ⟨h1, h2⟩ := search_built (b := .linked) (vs := (l.map Prod.fst).map dash) (by
        unfold getRafsiListList
        exact rafsiListListFrom_cll hxs) hbest hpick
      have hr1 := (made_best h (made_fine h h1)).2 _ _ h1 h2
      simp only [Bool.not_false, if_true] at hr
      unfold slinkuhiInJvozba at hr
      rw [program_build, hr1, hsl] at hr
      cases t <;> simp at hr
      simp [← hr]

/-- `jvokaha` raises only what is caught, provided cutting the word does and the slinku'i test does not raise. -/
theorem jvokaha_safe {y : YHyphens} {co : Consonants} {gl mz : Bool} {w : Str} {c : Char} (hwc : w.getLast? = some c)
    (hcv : Vowel c ∨ Consonant c) (hcut : Errs caughtErrs (jvokaha2 y mz w))
    (hsl : ∀ l, Made (kahaSettings y co gl mz) false l → (∃ c, (spell l).getLast? = some c ∧ Vowel c) →
      (spell l).take 3 = w.take 3 → ∃ t, (program .linked).slinkuhi y mz (spell l) = .ok t) :
    Errs caughtErrs (jvokaha (program .linked) y co gl mz w) := by
  have h0 : w ≠ [] := by rintro rfl; cases hwc
  unfold jvokaha
  refine .bind hcut fun arr harr => ?_
  dsimp only
  refine .ite (fun _ => .err (by decide)) fun h2 => ?_
  obtain ⟨hj, hC⟩ := jvokaha2_ok harr
  rw [List.length_map] at h2
  have hne : arr ≠ [] := by
    rintro rfl
    exact h0 hj.symm
  have hlast : ∃ p, arr.getLast? = some p ∧ p.getLast? = some c := by
    cases hp : arr.getLast? with
    | none => simp at hp; exact absurd hp hne
    | some p =>
      obtain ⟨u, rfl⟩ := List.getLast?_eq_some_iff.1 hp
      refine ⟨p, rfl, ?_⟩
      have hpn : p ≠ [] := by
        have := hC.mem p (by simp)
        rcases this with ⟨_, h⟩ | h | h | h | h
        · exact rafsi_ne h
        all_goals subst h; simp
      have e : join (u ++ [p]) = u.flatten ++ p := by simp [join]
      rw [← hj, e, List.getLast?_append] at hwc
      cases hg : p.getLast? with
      | none => simp at hg; exact absurd hg hpn
      | some d => rw [hg] at hwc; simpa using hwc
  obtain ⟨p, hp, hpc⟩ := hlast
  rw [hp]
  dsimp only
  rw [show idxLast p = .ok c by simp [idxLast, hpc], ok_bind]
  have hlen : 2 ≤ (arr.filter (fun x => x.length > 2)).length := by
    cases arr with
    | nil => exact absurd rfl hne
    | cons p arr =>
      have hp := rafsi_length hC.head.1.rafsi
      rw [List.filter_cons, if_pos (by simp; omega)] at h2 ⊢
      rw [List.length_cons] at h2 ⊢
      omega
  generalize hgc : isConsonant c = g
  obtain ⟨l, hcan, hfst⟩ := canon_exists (kahaSettings y co gl mz) g hlen
  have hmade : Made (kahaSettings y co gl mz) g l := by
    refine ⟨hcan, ?_, ?_⟩
    · intro p hp
      exact hC.filter p.1 (hfst ▸ List.mem_map.2 ⟨p, hp, rfl⟩)
    · intro p hp
      refine chop_long hC p.1 (hfst ▸ ?_)
      rw [← List.map_dropLast]
      exact List.mem_map.2 ⟨p, hp, rfl⟩
  have hd : ∀ p ∈ l, Diph p.1 := by
    intro p hp
    have : p.1 ∈ arr.filter (fun x => x.length > 2) := hfst ▸ List.mem_map.2 ⟨p, hp, rfl⟩
    exact chop_diph hC _ (List.mem_filter.1 this).1
  have hread := C37_reading_found (ext_reading hmade (Ext.refl y l) hd)
  rw [flat_spell] at hread
  have hfirst : (spell l).take 3 = w.take 3 := by
    cases arr with
    | nil => exact absurd rfl hne
    | cons q arr =>
      have hq := rafsi_length hC.head.1.rafsi
      rw [List.filter_cons, if_pos (by simp; omega)] at hfst
      cases l with
      | nil => cases hfst
      | cons a l =>
        obtain ⟨x, h⟩ := a
        simp only [List.map_cons, List.cons.injEq] at hfst
        rw [← hj, show spell ((x, h) :: l) = x ++ (h ++ spell l) by simp [spell], show join (q :: arr) = q ++ join arr from rfl, hfst.1,
          List.take_append_of_le_length (by omega), List.take_append_of_le_length (by omega)]
  have hend : Vowel c → ∃ c, (spell l).getLast? = some c ∧ Vowel c := by
    intro hv
    obtain ⟨u, x, e⟩ := canon_end hmade.canon
    have hxp : x = p := by
      obtain ⟨u', e'⟩ := List.getLast?_eq_some_iff.1 hp
      have hp2 : 2 < p.length := by
        have := hC.mem p (by rw [e']; simp)
        rcases this with ⟨_, h⟩ | h | h | h | h
        · have := rafsi_length h; omega
        all_goals
          subst h
          simp at hpc
          subst hpc
          revert hv; decide
      rw [e', List.filter_append, List.filter_cons_of_pos (by simpa using hp2), e] at hfst
      simp at hfst
      exact hfst.2
    subst hxp
    refine ⟨c, ?_, hv⟩
    rw [e, spell]
    simp only [List.map_append, List.flatten_append, List.map_cons, List.map_nil, List.append_nil, List.flatten_cons, List.flatten_nil]
    rw [List.getLast?_append, hpc]
    rfl
  have hg := made_errs (b := .linked) hmade fun e => ⟨rfl, by
    subst e
    have hv : Vowel c := hcv.resolve_right fun h => by rw [(isConsonant_iff c).2 h] at hgc; cases hgc
    exact hsl _ hmade (hend hv) hfirst⟩
  rw [← hfst]
  refine .bind ?_ fun r hr => ?_
  · intro e he
    split at he
    · cases he; simp [caughtErrs]
    · rename_i hx hnot
      have := hg e he
      simp at this
      subst this
      exact absurd he hnot
  · have hr' : getLujvoFromList (program .linked) (kahaSettings y co gl mz) g ((l.map Prod.fst).map dash) = .ok r := by
      split at hr
      · cases hr
      · exact hr
    obtain ⟨hrs, -⟩ := made_search hmade hr'
    refine .bind ?_ fun good _ => .ite (fun _ => .ok) fun _ => .err (by decide)
    refine .ite (fun _ => .ok) fun _ => ?_
    rw [hrs, show jvokaha2 y mz (spell l) = .ok (flat l) from hread, ok_bind]
    have hgl := canon_glue hmade.canon
    obtain ⟨t, ht⟩ := compare_safe (other := arr) (flat l) 0 (by
      rw [List.drop_zero, flat_rafsi (mz := mz) fun p hp => ⟨hmade.rafsi p hp, hgl p hp⟩]
      exact hfst.symm) (by
      intro p hp
      obtain ⟨u, x, e⟩ := canon_end hmade.canon
      rw [flat_last e] at hp
      cases hp
      have := rafsi_length (hmade.rafsi (p, []) (by rw [e]; simp))
      dsimp only at this
      omega)
    unfold compareLujvoPieces
    rw [ht]
    exact .ok

/-! ## The chain -/

theorem cuts_cvc {mz : Bool} {q rest u : Str} {b v c : Char} (h : Cuts mz q rest) (e : q ++ rest = b :: v :: c :: u)
    (hv : Vowel v) (hc : Consonant c) : (q = [b, v, c] ∧ rest = u) ∨
      (∃ d, q = [b, v, c, d] ∧ u = d :: rest ∧ Consonant d ∧ (rest = [] ∨ ∃ t, rest = 'y' :: t)) ∨
      (∃ d d', q = [b, v, c, d, d'] ∧ u = [d, d'] ∧ rest = [] ∧ Consonant d ∧ Vowel d') := by
  have vc : ∀ {a : Char}, Vowel a → Consonant a → False := fun h h' => vowel_not_consonant h h'
  have hq : Vowel '\'' → False := by decide
  have hq' : Consonant '\'' → False := by decide
  cases h with
  | cvv _ _ h3 => simp at e; obtain ⟨rfl, rfl, rfl, rfl⟩ := e; exact (vc ((isVowel_iff _).1 h3) hc).elim
  | cvhv _ _ h3 => simp at e; obtain ⟨rfl, rfl, rfl, rfl⟩ := e; exact (hq' hc).elim
  | cvcc _ _ h3 h4 => simp at e; obtain ⟨rfl, rfl, rfl, rfl⟩ := e; exact .inr (.inl ⟨_, rfl, rfl, h3.2.1, h4⟩)
  | ccvc h1 h2 h3 =>
    simp at e; obtain ⟨rfl, rfl, rfl, rfl⟩ := e
    exact (vc hv ((isConsonant_iff _).1 (initial_cons h1).2)).elim
  | gismu hg =>
    cases hg with
    | cvccv h1 h2 h3 h4 => simp at e; obtain ⟨rfl, rfl, rfl, rfl⟩ := e; exact .inr (.inr ⟨_, _, rfl, rfl, rfl, h3.2.1, h4⟩)
    | ccvcv h1 h2 h3 h4 =>
      simp at e; obtain ⟨rfl, rfl, rfl, rfl⟩ := e
      exact (vc hv ((isConsonant_iff _).1 (initial_cons h1).2)).elim
  | cvc => simp at e; obtain ⟨rfl, rfl, rfl, rfl⟩ := e; exact .inl ⟨rfl, rfl⟩
  | ccv h1 =>
    simp at e; obtain ⟨rfl, rfl, rfl, rfl⟩ := e
    exact (vc hv ((isConsonant_iff _).1 (initial_cons h1).2)).elim

theorem chop_vowel {y : YHyphens} {mz : Bool} {prev : Option Str} {ps : List Str} {v : Char} {t : Str} (h : Chop y mz prev ps)
    (e : join ps = v :: t) (hv : Vowel v) : False := by
  cases h with
  | nil => cases e
  | y => cases e; revert hv; decide
  | n => cases e; revert hv; decide
  | r => cases e; revert hv; decide
  | hy => cases e; revert hv; decide
  | @rafsi _ p ps hc =>
    obtain ⟨a, u, rfl, ha⟩ := rafsi_first hc.rafsi
    have e' : a :: (u ++ join ps) = v :: t := e
    cases e'
    rw [not_consonant_of_vowel ((isVowel_iff _).2 hv)] at ha; cases ha

theorem rafsi_two {mz : Bool} {x : Str} (h : Rafsi mz x) : (∃ c v r, x = c :: v :: r ∧ Consonant c ∧ Vowel v) ∨
    ∃ a b r, x = a :: b :: r ∧ InitialPair a b := by
  cases h with
  | cvv h1 h2 => exact .inl ⟨_, _, _, rfl, h1, h2⟩
  | cvhv h1 h2 => exact .inl ⟨_, _, _, rfl, h1, h2⟩
  | cvc h1 h2 => exact .inl ⟨_, _, _, rfl, h1, h2⟩
  | cvcc h1 h2 => exact .inl ⟨_, _, _, rfl, h1, h2⟩
  | ccv h1 => exact .inr ⟨_, _, _, rfl, h1⟩
  | ccvc h1 => exact .inr ⟨_, _, _, rfl, h1⟩
  | gismu hg =>
    cases hg with
    | cvccv h1 h2 => exact .inl ⟨_, _, _, rfl, h1, h2⟩
    | ccvcv h1 => exact .inr ⟨_, _, _, rfl, h1⟩

theorem rafsi_cc {mz : Bool} {a b : Char} {r : Str} (h : Rafsi mz (a :: b :: r)) (hi : InitialPair a b) :
    ∃ v r', r = v :: r' ∧ Vowel v ∧ ((r' = [] ∧ kindOf (a :: b :: r) = .ccv) ∨
      (∃ c, r' = [c] ∧ Consonant c ∧ kindOf (a :: b :: r) = .short) ∨
      (∃ c d, r' = [c, d] ∧ Consonant c ∧ Vowel d ∧ kindOf (a :: b :: r) = .long)) := by
  have hk := rafsi_rk h
  have hb := (isConsonant_iff _).1 (initial_cons hi).2
  generalize hx : a :: b :: r = x at hk
  generalize kindOf x = k at hk
  cases hk with
  | cvv _ h2 => cases hx; exact (vowel_not_consonant h2 hb).elim
  | cvhv _ h2 => cases hx; exact (vowel_not_consonant h2 hb).elim
  | cvc _ h2 => cases hx; exact (vowel_not_consonant h2 hb).elim
  | ccv _ h2 => cases hx; exact ⟨_, _, rfl, h2, .inl ⟨rfl, rfl⟩⟩
  | cvcc _ h2 => cases hx; exact (vowel_not_consonant h2 hb).elim
  | ccvc _ h2 h3 => cases hx; exact ⟨_, _, rfl, h2, .inr (.inl ⟨_, rfl, h3, rfl⟩)⟩
  | cvccv _ h2 => cases hx; exact (vowel_not_consonant h2 hb).elim
  | ccvcv _ h2 h3 h4 => cases hx; exact ⟨_, _, rfl, h2, .inr (.inr ⟨_, _, rfl, h3, h4, rfl⟩)⟩

theorem kind_of_cvc {a b c : Char} (h1 : Consonant a) (h2 : Vowel b) (h3 : Consonant c) : kindOf [a, b, c] = .cvc :=
  kind_cvc_iff.2 (tarmi_cvc.2 ⟨a, b, c, rfl, (isConsonant_iff _).2 h1, (isVowel_iff _).2 h2, (isConsonant_iff _).2 h3⟩)

theorem flat_join (l : List (Str × Str)) : join (flat l) = spell l := flat_spell l

theorem spell_cons (x h : Str) (l : List (Str × Str)) : spell ((x, h) :: l) = x ++ (h ++ spell l) := by simp [spell]

/-- The part of a word behind the first joint, with r or n after CVV and CV'V. -/
inductive LooseTail (mz : Bool) : List (Str × Str) → Prop
  | last {x} : LooseTail mz [(x, [])]
  | more {x h x' h' t} : h = lateHyphen mz x x' ∨ kindOf x = .vv → LooseTail mz ((x', h') :: t) → LooseTail mz ((x, h) :: (x', h') :: t)

theorem Tail.ext {y : YHyphens} {mz : Bool} {l : List (Str × Str)} (h : Tail mz l) : ∀ {m : List (Str × Str)}, Ext y l m → LooseTail mz m := by
  induction h with
  | last =>
    intro m hE
    cases hE with
    | same hE => cases hE; exact .last
  | @more x x' h' t _ ih =>
    intro m hE
    generalize hg : lateHyphen mz x x' = g at hE
    cases hE with
    | same hE =>
      have := ih hE
      cases hE with
      | same hE => exact .more (.inl hg.symm) this
      | extra => exact .more (.inl hg.symm) this
    | extra _ hk hE => exact .more (.inr hk) (ih hE)

/-- Cutting a word one letter too late: it all falls apart. -/
theorem chain {y : YHyphens} {mz : Bool} {l : List (Str × Str)} (hT : LooseTail mz l) : (∀ p ∈ l, Rafsi mz p.1) →
    (∀ p ∈ l.dropLast, kindOf p.1 ≠ .long) → (∃ c, (spell l).getLast? = some c ∧ Vowel c) →
    ∀ {a b : Char} {r h : Str} {t : List (Str × Str)}, l = (a :: b :: r, h) :: t → InitialPair a b →
    ∀ {z : Str} {m : List (Str × Str)}, kindOf z = .cvc → z.getLast? = some a → (∀ p ∈ m, Rafsi mz p.1 ∧ Glue p.2) →
    Chop y mz (some z) (flat m) → spell m = b :: (r ++ (h ++ spell t)) → Tosm ((z, []) :: m) := by
  induction hT with
  | @last x =>
    intro hr _ hvow a b r h t e hi z m hz hza hm hC hs
    cases e
    obtain ⟨v, r', rfl, hv, hcase⟩ := rafsi_cc (hr (a :: b :: r, []) (by simp)) hi
    cases m with
    | nil => cases hs
    | cons q m =>
      obtain ⟨q, hq⟩ := q
      obtain ⟨t', ht'⟩ := flat_head (x := q) (h := hq) (l := m)
      have hqr : Rafsi mz q := (hm (q, hq) (by simp)).1
      have hjoin : q ++ join t' = spell ((q, hq) :: m) := by rw [← flat_join, ht']; rfl
      rw [ht'] at hC
      rw [hs] at hjoin
      rcases hcase with ⟨rfl, -⟩ | ⟨c, rfl, hc, -⟩ | ⟨c, d, rfl, hc, hd, -⟩
      · exfalso
        have := congrArg List.length hjoin
        have := rafsi_length hqr
        simp [spell] at *
        omega
      · exfalso
        obtain ⟨c', h1, h2⟩ := hvow
        simp [spell] at h1
        subst h1
        exact vowel_not_consonant h2 hc
      · exfalso
        have hcut : Cuts mz q (join t') ∧ Chop y mz (some q) t' := by
          cases hC with
          | rafsi h1 h2 => exact ⟨h1, h2⟩
          | _ => exact absurd (by decide) (rafsi_not_hyphen hqr)
        have hdc : ¬ Consonant d := fun h => vowel_not_consonant hd h
        rcases cuts_cvc hcut.1 (by rw [hjoin]; rfl) hv hc with ⟨-, h2⟩ | ⟨d', -, h2, h3, -⟩ | ⟨d', d'', -, h2, -, h3, -⟩
        · exact chop_vowel hcut.2 h2 hd
        · simp [spell] at h2; rw [h2.1] at hdc; exact hdc h3
        · simp [spell] at h2
  | @more x h0 x' h' t hh hT ih =>
    intro hr hlong hvow a b r h t0 e hi z m hz hza hm hC hs
    simp only [List.cons.injEq, Prod.mk.injEq] at e
    obtain ⟨⟨rfl, rfl⟩, rfl⟩ := e
    have hx : Rafsi mz (a :: b :: r) := hr (a :: b :: r, _) (List.mem_cons_self ..)
    have hh : h0 = lateHyphen mz (a :: b :: r) x' := by
      rcases hh with hh | hh
      · exact hh
      · exfalso
        obtain ⟨v, r'', -, -, h | ⟨_, -, -, h⟩ | ⟨_, _, -, -, -, h⟩⟩ := rafsi_cc hx hi
        · rw [h.2] at hh; cases hh
        · rw [h] at hh; cases hh
        · rw [h] at hh; cases hh
    subst hh
    have hx' : Rafsi mz x' := hr (x', h') (by simp)
    obtain ⟨v, r', rfl, hv, hcase⟩ := rafsi_cc hx hi
    have hbc := (isConsonant_iff _).1 (initial_cons hi).2
    cases m with
    | nil => cases hs
    | cons q m =>
      obtain ⟨q, hq⟩ := q
      obtain ⟨t', ht'⟩ := flat_head (x := q) (h := hq) (l := m)
      have hqr : Rafsi mz q := (hm (q, hq) (by simp)).1
      have hqg : Glue hq := (hm (q, hq) (by simp)).2
      have hjoin : q ++ join t' = spell ((q, hq) :: m) := by rw [← flat_join, ht']; rfl
      have htj : join t' = hq ++ spell m := by
        rw [spell_cons] at hjoin
        exact List.append_cancel_left hjoin
      have hC0 := hC
      rw [ht'] at hC
      rw [hs] at hjoin
      have hcut : Cuts mz q (join t') ∧ Chop y mz (some q) t' := by
        cases hC with
        | rafsi h1 h2 => exact ⟨h1, h2⟩
        | _ => exact absurd (by decide) (rafsi_not_hyphen hqr)
      have hmeet : ∀ {q'}, Meet z (b :: q') := fun {q'} => ⟨a, b, hza, rfl, hi⟩
      have hmh : ∀ {c s'}, spell m = c :: s' → Consonant c := by
        intro c s' e
        cases m with
        | nil => cases e
        | cons p m =>
          obtain ⟨p, hp⟩ := p
          obtain ⟨c', u, hpe, hc'⟩ := rafsi_first (hm (p, hp) (by simp)).1
          dsimp only at hpe
          subst hpe
          rw [spell_cons] at e
          cases e
          exact (isConsonant_iff _).1 hc'
      rcases hcase with ⟨rfl, hk⟩ | ⟨c, rfl, hc, hk⟩ | ⟨c, d, rfl, hc, hd, hk⟩
      · -- CCV
        have hlate : lateHyphen mz [a, b, v] x' = [] := by
          unfold lateHyphen
          rw [if_neg]
          rintro (h | ⟨h, -⟩) <;> rw [hk] at h <;> cases h
        rw [hlate, List.nil_append, spell_cons] at hjoin
        rcases rafsi_two hx' with ⟨c, v', r', rfl, hc, hv'⟩ | ⟨a', b', r', rfl, hi'⟩
        · exfalso
          rcases cuts_cvc (c := c) (u := v' :: (r' ++ (h' ++ spell t))) hcut.1 (by rw [hjoin]; rfl) hv hc with
            ⟨-, h2⟩ | ⟨d', -, h2, h3, -⟩ | ⟨d', d'', -, h2, -, h3, -⟩
          · exact chop_vowel hcut.2 h2 hv'
          · rw [List.cons.injEq] at h2; rw [h2.1] at hv'; exact vowel_not_consonant hv' h3
          · rw [List.cons.injEq] at h2; rw [h2.1] at hv'; exact vowel_not_consonant hv' h3
        · obtain ⟨v', r'', hr', hv', -⟩ := rafsi_cc hx' hi'
          have ha' := (isConsonant_iff _).1 (initial_cons hi').1
          have hb' := (isConsonant_iff _).1 (initial_cons hi').2
          rcases cuts_cvc (c := a') (u := b' :: (r' ++ (h' ++ spell t))) hcut.1 (by rw [hjoin]; rfl) hv ha' with
            ⟨rfl, h2⟩ | ⟨d', -, h2, h3, h4⟩ | ⟨d', d'', rfl, h2, -, h3, h4⟩
          · have hq0 : hq = [] := by
              rw [h2] at htj
              rcases hqg with h | rfl | rfl | rfl | rfl
              · exact h
              · have := (List.cons.inj htj).1; subst this; exact absurd hb' (by decide)
              · have := (List.cons.inj htj).1; subst this; exact absurd hb' (by decide)
              all_goals
                exfalso
                rw [flat_hyphen (by simp)] at ht'
                cases ht'
                obtain ⟨p, hp, -, -, hp', -⟩ := chop_rn hcut.2 (by simp)
                cases hp
                have hkc := kind_of_cvc hbc hv ha'
                rw [kind_cvc_iff] at hkc
                rw [hkc] at hp'
                revert hp'; decide
            subst hq0
            refine .step hz hmeet ?_
            rw [flat_bare] at ht'
            cases ht'
            refine ih (fun p hp => hr p (List.mem_cons_of_mem _ hp)) (fun p hp => hlong p ?_) ?_ rfl hi' (kind_of_cvc hbc hv ha') rfl
              (fun p hp => hm p (List.mem_cons_of_mem _ hp)) hcut.2 ?_
            · rw [List.dropLast_cons_of_ne_nil (by simp)]
              exact List.mem_cons_of_mem _ hp
            · obtain ⟨c, h1, h2⟩ := hvow
              refine ⟨c, ?_, h2⟩
              rw [spell_cons, List.getLast?_append, List.getLast?_append] at h1
              cases hsp : (spell ((a' :: b' :: r', h') :: t)).getLast? with
              | none => rw [spell_cons] at hsp; simp at hsp
              | some c' => rw [hsp] at h1; simpa using h1
            · rw [← flat_join]; exact h2
          · exfalso
            rw [hr'] at h2
            have h5 := (List.cons.inj h2).2
            rcases h4 with h4 | ⟨t2, h4⟩
            · rw [h4] at h5; cases h5
            · rw [h4] at h5
              have := (List.cons.inj h5).1
              subst this; exact absurd hv' (by decide)
          · rw [hr'] at h2
            simp at h2
            obtain ⟨rfl, rfl, -⟩ := h2
            refine .gismu hz hmeet ?_ hi'
            have hn : ∀ {c}, Consonant c → ¬ Vowel c := fun h h' => vowel_not_consonant h' h
            simp [pattern, hbc, ha', hb', hv, hv', hn hbc, hn ha', hn hb']
      · -- CCVC, before y
        have hlate : lateHyphen mz [a, b, v, c] x' = s%"y" := by
          unfold lateHyphen
          rw [if_pos (.inl hk)]
        rw [hlate] at hjoin
        rcases cuts_cvc (c := c) (u := 'y' :: spell ((x', h') :: t)) hcut.1 (by rw [hjoin]; rfl) hv hc with
          ⟨rfl, h2⟩ | ⟨d', -, h2, h3, -⟩ | ⟨d', d'', -, h2, -, h3, -⟩
        · have hq0 : hq = s%"y" := by
            rw [h2] at htj
            rcases hqg with h | rfl | rfl | rfl | rfl
            · subst h
              have := hmh htj.symm
              exact absurd this (by decide)
            · rfl
            all_goals cases htj
          subst hq0
          exact .y hz hmeet (kind_of_cvc hbc hv hc)
        · rw [← (List.cons.inj h2).1] at h3; exact absurd h3 (by decide)
        · rw [← (List.cons.inj h2).1] at h3; exact absurd h3 (by decide)
      · exfalso
        refine hlong ([a, b, v, c, d], lateHyphen mz [a, b, v, c, d] x') ?_ hk
        rw [List.dropLast_cons_of_ne_nil (by simp)]
        exact List.mem_cons_self ..

theorem tosm_ext {y : YHyphens} {m : List (Str × Str)} (h : Tosm m) : ∀ {l : List (Str × Str)}, Ext y l m → Tosm l := by
  have horn : ∀ {x' : Str}, (if x'.head? = some 'r' then s%"n" else s%"r") ≠ [] ∧ (if x'.head? = some 'r' then s%"n" else s%"r") ≠ s%"y" := by
    intro x'; split <;> simp
  have first : ∀ {x h : Str} {l m : List (Str × Str)}, (h = [] ∨ h = s%"y") → Ext y l ((x, h) :: m) → ∃ l', l = (x, h) :: l' ∧ Ext y l' m := by
    intro x h l m hh hE
    generalize hm : (x, h) :: m = m0 at hE
    cases hE with
    | nil => cases hm
    | same hE => cases hm; exact ⟨_, rfl, hE⟩
    | @extra _ x' =>
      simp only [List.cons.injEq, Prod.mk.injEq] at hm
      obtain ⟨⟨rfl, rfl⟩, rfl⟩ := hm
      rcases hh with hh | hh
      · exact absurd hh horn.1
      · exact absurd hh horn.2
  induction h with
  | gismu h1 h2 h3 h4 =>
    intro l hE
    obtain ⟨l', rfl, hE'⟩ := first (.inl rfl) hE
    have hf := hE'.fst
    cases l' with
    | nil => cases hf
    | cons p l' =>
      obtain ⟨x, h⟩ := p
      simp at hf
      rw [hf.1]
      exact .gismu h1 h2 h3 h4
  | y h1 h2 h3 =>
    intro l hE
    obtain ⟨l', rfl, hE'⟩ := first (.inl rfl) hE
    obtain ⟨l'', rfl, -⟩ := first (.inr rfl) hE'
    exact .y h1 h2 h3
  | step h1 h2 h3 ih =>
    intro l hE
    obtain ⟨l', rfl, hE'⟩ := first (.inl rfl) hE
    have := ih hE'
    have hf := hE'.fst
    cases l' with
    | nil => cases hf
    | cons p l' =>
      obtain ⟨x, h⟩ := p
      simp at hf
      rw [← hf.1] at h2
      exact .step h1 h2 this

theorem first_late {s : Settings} {g : Bool} {x x' h' : Str} {t : List (Str × Str)} (h1 : kindOf x ≠ .vv) (h2 : kindOf x ≠ .cvc) :
    firstHyphen s g x x' h' t = lateHyphen s.allowMz x x' := by
  unfold firstHyphen lateHyphen
  split
  · rfl
  · rw [if_neg (fun h => h1 h.1), if_neg]
    rintro ⟨-, h⟩
    exact h2 (tosm_bare h).1

theorem first_empty {s : Settings} {x x' h' : Str} {t : List (Str × Str)} (h1 : kindOf x = .cvc)
    (h2 : firstHyphen s false x x' h' t = []) : ¬ Tosm ((x, []) :: (x', h') :: t) := by
  intro h
  unfold firstHyphen at h2
  split at h2
  · cases h2
  · rw [if_neg (fun h => by rw [h1] at h; cases h.1), if_pos ⟨rfl, h⟩] at h2
    cases h2

/-- The word in canonical form, with or without superfluous r and n, is not a slinku'i. -/
theorem ext_not_slinkuhi {s : Settings} {l0 l : List (Str × Str)} (h0 : Made s false l0) (hE0 : Ext s.yHyphens l0 l)
    (hvow : ∃ c, (spell l).getLast? = some c ∧ Vowel c) :
    (program .linked).slinkuhi s.yHyphens s.allowMz (spell l) = .ok false := by
  have hsub : ∀ v, v.take 3 = (s%"to" ++ spell l).take 3 → ∃ t, (program .linked).slinkuhi s.yHyphens s.allowMz v = .ok t := by
    intro v hv
    refine ⟨false, ?_⟩
    rw [slinkuhi_program]
    match v, hv with
    | [], hv => simp at hv
    | [_], hv => simp at hv
    | a :: b :: v, hv =>
      simp at hv
      obtain ⟨rfl, rfl, -⟩ := hv
      exact isSlinkuhi_to ..
  obtain ⟨x, hy, x', h', t, hl, hyk, hT⟩ : ∃ x hy x' h' t, l = (x, hy) :: (x', h') :: t ∧
      (hy = lateHyphen s.allowMz x x' ∨ kindOf x = .vv ∨ kindOf x = .cvc) ∧ LooseTail s.allowMz ((x', h') :: t) := by
    cases h0.canon with
    | @mk x x' h' t hT =>
      have hk : firstHyphen s false x x' h' t = lateHyphen s.allowMz x x' ∨ kindOf x = .vv ∨ kindOf x = .cvc := by
        by_cases h1 : kindOf x = .vv
        · exact .inr (.inl h1)
        · by_cases h2 : kindOf x = .cvc
          · exact .inr (.inr h2)
          · exact .inl (first_late h1 h2)
      generalize firstHyphen s false x x' h' t = g at hE0 hk
      cases hE0 with
      | same hE =>
        have := hT.ext hE
        cases hE with
        | same hE => exact ⟨_, _, _, _, _, rfl, hk, this⟩
        | extra => exact ⟨_, _, _, _, _, rfl, hk, this⟩
      | extra _ hk' hE => exact ⟨_, _, _, _, _, rfl, .inr (.inl hk'), hT.ext hE⟩
  have hrl : ∀ p ∈ l, Rafsi s.allowMz p.1 := fun p hp =>
    made_xs h0 p.1 (by rw [hE0.fst]; exact List.mem_map.2 ⟨p, hp, rfl⟩)
  have hll : ∀ p ∈ l.dropLast, kindOf p.1 ≠ .long := by
    intro p hp
    have : p.1 ∈ (l0.map Prod.fst).dropLast := by
      rw [hE0.fst, ← List.map_dropLast]; exact List.mem_map_of_mem hp
    rw [← List.map_dropLast] at this
    obtain ⟨q, hq, e⟩ := List.mem_map.1 this
    rw [← e]
    exact h0.long q hq
  have hx : Rafsi s.allowMz x := hrl (x, _) (by rw [hl]; exact List.mem_cons_self ..)
  have hx' : Rafsi s.allowMz x' := hrl (x', h') (by rw [hl]; simp)
  obtain ⟨a, r, hxe, ha⟩ := rafsi_first hx
  have hsp : spell l = a :: (r ++ (hy ++ spell ((x', h') :: t))) := by
    rw [hl, spell_cons, hxe]; rfl
  obtain ⟨c, hlc, hc⟩ := hvow
  have hlast : (s%"to" ++ spell l).getLast? = some c := by
    rw [List.getLast?_append, hlc]; rfl
  have hsafe := jvokaha_safe (co := .cluster) (gl := false) (w := s%"to" ++ spell l) hlast (.inl hc) (caught_jvokaha2 (by
    intro h
    exfalso
    rw [hsp] at h
    obtain ⟨_, _, _, e, -, hb, -⟩ := tarmi_ccv.1 h
    simp [slice] at e
    rw [← e.2.1] at hb
    revert hb; decide) (by
    rw [hlast]
    intro e; cases e
    revert hc; decide)) (fun _ _ _ h => hsub _ h)
  have hfail : ∀ arr, jvokaha (program .linked) s.yHyphens .cluster false s.allowMz (s%"to" ++ spell l) ≠ .ok arr := by
    intro arr harr
    obtain ⟨c', l', m, hc', ham, hfl, hmade, hapt, hE, -, -⟩ := jvokaha_canon harr
    rw [hlast] at hc'
    cases hc'
    rw [not_consonant_of_vowel ((isVowel_iff c).2 hc)] at hmade
    obtain ⟨hj2, -⟩ := jvokaha_ok harr
    obtain ⟨-, hC⟩ := jvokaha2_ok hj2
    have hgl := hE.glue (canon_glue hmade.canon)
    have hmr : ∀ p ∈ m, Rafsi s.allowMz p.1 ∧ Glue p.2 := fun p hp =>
      ⟨made_xs hmade p.1 (by rw [hE.fst]; exact List.mem_map.2 ⟨p, hp, rfl⟩), hgl p hp⟩
    rw [ham] at hC hfl
    rw [flat_spell] at hfl
    cases m with
    | nil => rw [hsp] at hfl; cases hfl
    | cons z m =>
      obtain ⟨z, hz⟩ := z
      obtain ⟨t', ht'⟩ := flat_head (x := z) (h := hz) (l := m)
      have hzr : Rafsi s.allowMz z := (hmr (z, hz) (by simp)).1
      have hzg : Glue hz := (hmr (z, hz) (by simp)).2
      have hjoin : z ++ join t' = spell ((z, hz) :: m) := by rw [← flat_join, ht']; rfl
      have htj : join t' = hz ++ spell m := by
        rw [spell_cons] at hjoin
        exact List.append_cancel_left hjoin
      rw [ht'] at hC
      obtain ⟨hcut, hC'⟩ := hC.head
      rw [hfl, hsp] at hjoin
      have ha' := (isConsonant_iff a).1 ha
      rcases cuts_cvc (c := a) hcut (by rw [hjoin]; rfl) (show Vowel 'o' by decide) ha' with
        ⟨rfl, h2⟩ | ⟨d, -, h2, h3, h4⟩ | ⟨d, d', -, h2, -, h3, h4⟩
      · rcases rafsi_two hx with ⟨c1, v, r', e, hc1, hv⟩ | ⟨a1, b, r', e, hi⟩
        · rw [hxe] at e; cases e
          exact chop_vowel hC' h2 hv
        · rw [hxe] at e; cases e
          have hkz : kindOf ['t', 'o', a] = .cvc := kind_of_cvc (by decide) (by decide) ha'
          have hb := (isConsonant_iff b).1 (initial_cons hi).2
          have hz0 : hz = [] := by
            rw [h2] at htj
            rcases hzg with h | rfl | rfl | rfl | rfl
            · exact h
            · have := (List.cons.inj htj).1; subst this; exact absurd hb (by decide)
            · have := (List.cons.inj htj).1; subst this; exact absurd hb (by decide)
            all_goals
              exfalso
              rw [flat_hyphen (by simp)] at ht'
              cases ht'
              obtain ⟨p, hp, -, -, hp', -⟩ := chop_rn hC' (by simp)
              cases hp
              rw [kind_cvc_iff] at hkz
              rw [hkz] at hp'
              revert hp'; decide
          subst hz0
          rw [flat_bare] at ht'
          cases ht'
          have hkx : kindOf x ≠ .vv ∧ kindOf x ≠ .cvc := by
            rw [hxe] at hx ⊢
            obtain ⟨v, r'', -, -, h | ⟨_, -, -, h⟩ | ⟨_, _, -, -, -, h⟩⟩ := rafsi_cc hx hi
            · rw [h.2]; simp
            · rw [h]; simp
            · rw [h]; simp
          have hTl : LooseTail s.allowMz l := by
            rw [hl]
            refine .more ?_ hT
            rcases hyk with h | h | h
            · exact .inl h
            · exact .inr h
            · exact absurd h hkx.2
          have htosm := chain (y := s.yHyphens) hTl hrl hll ⟨c, hlc, hc⟩ (by rw [hl, hxe]) hi hkz rfl
            (fun p hp => hmr p (List.mem_cons_of_mem _ hp)) hC' (by rw [← flat_join]; exact h2)
          have htosm' := tosm_ext htosm hE
          cases hmade.canon with
          | @mk y0 y1 h1 t1 hT1 =>
            obtain ⟨hk0, he0⟩ := tosm_bare htosm'
            rw [he0] at htosm'
            exact first_empty hk0 he0 htosm'
      · rcases rafsi_two hx with ⟨c1, v, r', e, hc1, hv⟩ | ⟨a1, b, r', e, hi⟩
        · rw [hxe] at e; cases e
          rw [(List.cons.inj h2).1] at hv
          exact vowel_not_consonant hv h3
        · rw [hxe] at e hx; cases e
          obtain ⟨v, r'', rfl, hv, -⟩ := rafsi_cc hx hi
          have h5 := (List.cons.inj h2).2
          rcases h4 with h4 | ⟨t2, h4⟩
          · rw [h4] at h5; cases h5
          · rw [h4] at h5
            rw [(List.cons.inj h5).1] at hv
            exact absurd hv (by decide)
      · have hl1 := rafsi_length hx
        have hl2 := rafsi_length hx'
        rw [hxe] at hl1
        have := congrArg List.length h2
        simp [spell_cons] at this hl1
        omega
  rw [slinkuhi_program]
  unfold isSlinkuhi
  rw [hsp, show idx (a :: (r ++ (hy ++ spell ((x', h') :: t)))) 0 = .ok a from rfl, ok_bind, ← hsp,
    if_neg (by rw [not_vowel_of_consonant ha]; simp)]
  cases hk : jvokaha (program .linked) s.yHyphens .cluster false s.allowMz (s%"to" ++ spell l) with
  | ok arr => exact absurd hk (hfail arr)
  | error e =>
    have := hsafe e hk
    simp [caughtErrs] at this
    rcases this with rfl | rfl <;> rfl

/-- The word in canonical form is not a slinku'i. -/
theorem canon_not_slinkuhi {s : Settings} {l : List (Str × Str)} (h : Made s false l)
    (hvow : ∃ c, (spell l).getLast? = some c ∧ Vowel c) :
    (program .linked).slinkuhi s.yHyphens s.allowMz (spell l) = .ok false :=
  ext_not_slinkuhi h (Ext.refl _ l) hvow

/-- `jvokaha` raises only what is caught, provided cutting the word does. -/
theorem jvokaha_caught {y : YHyphens} {co : Consonants} {gl mz : Bool} {w : Str} {c : Char} (hwc : w.getLast? = some c)
    (hcv : Vowel c ∨ Consonant c) (hcut : Errs caughtErrs (jvokaha2 y mz w)) :
    Errs caughtErrs (jvokaha (program .linked) y co gl mz w) :=
  jvokaha_safe hwc hcv hcut fun _ hM hv _ => ⟨false, canon_not_slinkuhi (s := kahaSettings y co gl mz) hM hv⟩

end Jvotci
