import Verif.Lemmas.JsAgree

/-!
# Helper lemmas: which exceptions each function of the JavaScript version can throw

As in `Err.lean`, none of the lists below contains `fuel`.
-/

namespace Jvotci

open Spec

def JErrs {α : Type} (E : List JsErr) (x : Except JsErr α) : Prop := ∀ e, x = .error e → e ∈ E

theorem JErrs.ok {α : Type} {E : List JsErr} {a : α} : JErrs E (Except.ok a) := fun _ h => by cases h

theorem JErrs.err {α : Type} {E : List JsErr} {e : JsErr} (h : e ∈ E) : JErrs E (Except.error e : Except JsErr α) :=
  fun _ h' => by cases h'; exact h

theorem JErrs.mono {α : Type} {E E' : List JsErr} {x : Except JsErr α} (h : JErrs E x) (hs : ∀ e ∈ E, e ∈ E') :
    JErrs E' x := fun e he => hs e (h e he)

theorem jbind_ok {α β : Type} {x : Except JsErr α} {f : α → Except JsErr β} {b : β} (h : (x >>= f) = .ok b) :
    ∃ a, x = .ok a ∧ f a = .ok b := by
  cases x with
  | error e => cases h
  | ok a => exact ⟨a, rfl, h⟩

theorem JErrs.bind {α β : Type} {E : List JsErr} {x : Except JsErr α} {f : α → Except JsErr β}
    (h : JErrs E x) (hf : ∀ a, x = .ok a → JErrs E (f a)) : JErrs E (x >>= f) := by
  cases x with
  | error e => intro e' he; cases he; exact h e rfl
  | ok a => exact hf a rfl

theorem JErrs.ite {α : Type} {E : List JsErr} {p : Prop} [Decidable p] {x y : Except JsErr α}
    (h1 : p → JErrs E x) (h2 : ¬ p → JErrs E y) : JErrs E (if p then x else y) := by
  split
  · exact h1 ‹_›
  · exact h2 ‹_›

theorem JErrs.mapError {α : Type} {E : List Err} {x : Except Err α} (h : Errs E x) : JErrs (E.map toJ) (x.mapError toJ) := by
  cases x with
  | ok a => exact .ok
  | error e => exact .err (List.mem_map.2 ⟨e, h e rfl, rfl⟩)

/-! ## Cutting, and the search for the correct lujvo -/

/-- The exceptions of `jvokaha2`. -/
def jsKahaErrs : List JsErr := [.decomposition, .invalidCluster, .notBrivla]

theorem jerrs_jvokaha2 (y : YHyphens) (mz : Bool) (w : Str) : JErrs jsKahaErrs (jsJvokaha2 y mz w) := by
  rw [jsJvokaha2_eq]
  exact (JErrs.mapError (errs_jvokaha2 y mz w)).mono (by decide)

theorem jerrs_splitVowelCluster (w : Str) : JErrs [.decomposition] (jsSplitVowelCluster w) := by
  rw [jsSplitVowelCluster_eq]
  exact (JErrs.mapError (errs_splitVowelCluster w)).mono (by decide)

theorem jerrs_zihScan (mz : Bool) (v : Str) : JErrs [.notZihevla] (jsZihScan mz v (v.length + 1) v {}) := by
  rw [jsZihScan_eq mz v _ v {} rfl]
  exact (JErrs.mapError (errs_zihScan (by omega))).mono (by decide)

theorem jsZihScan_py {mz : Bool} {v : Str} {st : ZState} (h : jsZihScan mz v (v.length + 1) v {} = .ok st) :
    zihScan mz v (v.length + 1) v {} = .ok st := by
  rw [jsZihScan_eq mz v _ v {} rfl] at h
  cases hz : zihScan mz v (v.length + 1) v {} with
  | error e => rw [hz] at h; cases h
  | ok a => rw [hz] at h; cases h; rfl

theorem jsJvokaha2_py {y : YHyphens} {mz : Bool} {w : Str} {arr : List Str} (h : jsJvokaha2 y mz w = .ok arr) :
    jvokaha2 y mz w = .ok arr := by
  rw [jsJvokaha2_eq] at h
  cases hz : jvokaha2 y mz w with
  | error e => rw [hz] at h; cases h
  | ok a => rw [hz] at h; cases h; rfl

variable {R : Rec} {J : JsRec}

theorem jerrs_getLujvoFromList_cll (h : AgRec R J) {s : Settings} (hex : s.expRafsi = false) {g : Bool} {xs : List Str}
    (hx : ∀ x ∈ xs, Rafsi s.allowMz x) (h2 : 2 ≤ xs.length)
    (hs : ∀ x rest t, xs = x :: rest → ¬ Single s.yHyphens s.allowMz (x ++ t) → JErrs [.notBrivla] (J.slinkuhi s.yHyphens s.allowMz (x ++ t))) :
    JErrs [.noLujvo, .notBrivla] (jsGetLujvoFromList J s g (xs.map (fun x => s%"-" ++ x ++ s%"-"))) := by
  obtain ⟨best, hbest⟩ := total_searchStages (o := combineOpts s g) (ll := xs.mapIdx (fun j x => cllForms x (rafsiTarmi x) (0 + j == 0)
        (0 + j + 1 == (xs.map (fun x => s%"-" ++ x ++ s%"-")).length) s.consonants)) (by simpa using h2) (by
      intro fs hfs r hr
      rw [List.mem_mapIdx] at hfs
      obtain ⟨i, hi, rfl⟩ := hfs
      have hx := hx _ (List.getElem_mem hi)
      generalize xs[i] = x at hr hx
      have := cllForms_text hr
      obtain ⟨u, hu⟩ := this
      rw [hu]
      exact solid_rafsi hx u)
  have hllp := rafsiListListFrom_cll (R := program .linked) (s := s) (n := (xs.map (fun x => s%"-" ++ x ++ s%"-")).length) (i := 0) hx
  have hllj := (ag_rafsiListListFrom h (xs.map (fun x => s%"-" ++ x ++ s%"-")).length (xs.map (fun x => s%"-" ++ x ++ s%"-")) 0 fun _ _ => .inl hex).ok_of
    (rafsiListListFrom_cll hx)
  have hbj := (ag_searchStages (o := combineOpts s g) fun l hl r hr => later_forms (fun _ _ => .inl hex) hllp l (List.mem_of_mem_tail hl) r hr).ok_of hbest
  unfold jsGetLujvoFromList jsGetRafsiListList
  rw [hllj]
  show JErrs _ (jsSearchStages _ _ >>= _)
  rw [hbj]
  show JErrs _ (match jsPickBest g best with | none => _ | some r => _)
  rw [jsPickBest_eq]
  cases hp : pickBest g best with
  | none => exact .err (by simp)
  | some r =>
    refine .ite (fun hg => .bind ?_ fun b _ => .ite (fun _ => .err (by simp)) fun _ => .ok) fun _ => .ok
    obtain ⟨x, rest, t, hxs, hrt⟩ := getLujvoFromList_first hx hbest hp
    have hlong := search_long (fun _ _ => .inl hex) hllp hbest hp
    have hvow : r.1.getLast? ≠ some 'y' := by
      obtain ⟨⟨zs, h, hrep, hL, e, -⟩, -⟩ := search_built hllp hbest hp
      obtain ⟨c, hc, hv⟩ := hL.ends
      rw [← e] at hc
      rw [hc]
      rintro ⟨⟩
      simp only [Bool.not_eq_true', ] at hg
      subst hg
      exact absurd hv (by decide)
    have hns : ¬ Single s.yHyphens s.allowMz r.1 := fun hs => by
      have := (single_short hs hvow).1
      omega
    rw [hrt] at hns ⊢
    exact (hs x rest t hxs hns).mono (by simp)

theorem jerrs_jvokaha (h : AgRec R J) {y : YHyphens} {co : Consonants} {g mz : Bool} {w : Str}
    (hs : ∀ v, v.take 3 = w.take 3 → ¬ Single y mz v → JErrs [.notBrivla] (J.slinkuhi y mz v)) :
    ∀ e, jsJvokaha J y co g mz w = .error e → e ∈ jsKahaErrs ∨ e = .type ∧ (w = [] ∨ Lone y mz w) := by
  have main : (w = [] ∨ Lone y mz w) ∧ jsJvokaha J y co g mz w = .error .type ∨ JErrs jsKahaErrs (jsJvokaha J y co g mz w) := by
    unfold jsJvokaha
    cases harr : jsJvokaha2 y mz w with
    | error e => exact .inr (.err (jerrs_jvokaha2 _ _ _ _ harr))
    | ok arr =>
      have harrp := jsJvokaha2_py harr
      obtain ⟨hj, hch⟩ := jvokaha2_ok harrp
      show _ ∧ (if _ then _ else _) = _ ∨ JErrs _ (if _ then _ else _)
      by_cases h1 : ((arr.filter (fun x => x.length > 2)).map (fun x => s%"-" ++ x ++ s%"-")).length = 1
      · rw [if_pos h1]
        exact .inl ⟨.inr ⟨arr, harrp, by rwa [List.length_map] at h1⟩, rfl⟩
      · rw [if_neg h1]
        rw [List.length_map] at h1
        cases arr with
        | nil => exact .inl ⟨.inl (by rw [← hj]; rfl), rfl⟩
        | cons p ps =>
          right
          have hlen := hch.head.1.length_pos
          have hf : (p :: ps).filter (fun x => x.length > 2) = p :: ps.filter (fun x => x.length > 2) :=
            List.filter_cons_of_pos (by simp; omega)
          rw [List.getLast?_cons]
          dsimp only
          refine .bind ?_ fun r _ => .bind (.ite (fun _ => .ok) fun _ => .bind (jerrs_jvokaha2 _ _ _) fun corr _ => .ok) fun good _ =>
            .ite (fun _ => .ok) fun _ => .err (by decide)
          have hl := jerrs_getLujvoFromList_cll h (s := { yHyphens := y, consonants := co, glides := g, allowMz := mz }) rfl
            (g := jsIsConsonant (jsLast (ps.getLast?.getD p))) (xs := (p :: ps).filter (fun x => x.length > 2)) hch.filter (by
              rw [hf] at h1 ⊢
              simp only [List.length_cons] at h1 ⊢
              omega) (by
              intro x rest t he hns
              refine hs _ ?_ hns
              rw [hf] at he
              cases he
              rw [← hj, join, List.flatten_cons, List.take_append_of_le_length hlen,
                List.take_append_of_le_length hlen])
          split
          · exact .err (by decide)
          · rename_i x hx
            intro e he
            have := hl e he
            simp at this
            rcases this with rfl | rfl
            · exact absurd he hx
            · decide
  intro e he
  rcases main with ⟨h1, h2⟩ | h1
  · rw [h2] at he
    cases he
    exact .inr ⟨rfl, h1⟩
  · exact .inl (h1 e he)

theorem jerrs_isSlinkuhi (h : AgRec R J) {y : YHyphens} {mz : Bool} {w : Str} (hw : ¬ Single y mz w)
    (hs : ∀ t, ¬ Single y mz ('t' :: 'o' :: t) → JErrs [.notBrivla] (J.slinkuhi y mz ('t' :: 'o' :: t))) :
    JErrs [.notBrivla] (jsIsSlinkuhi J y mz w) := by
  unfold jsIsSlinkuhi
  refine .ite (fun _ => .ok) fun _ => ?_
  have hk := jerrs_jvokaha h (y := y) (co := .cluster) (g := false) (mz := mz) (w := s%"to" ++ w) (by
    intro v hv hns
    match v, hv, hns with
    | a :: b :: t, hv, hns =>
      simp at hv
      obtain ⟨rfl, rfl, -⟩ := hv
      exact hs t hns
    | [], hv, _ => simp at hv
    | [a], hv, _ => simp at hv)
  split
  · exact .ok
  · exact .ok
  · exact .ok
  · rename_i e h1 h2 he
    rcases hk e he with h3 | ⟨rfl, h3 | h3⟩
    · simp [jsKahaErrs] at h3
      rcases h3 with rfl | rfl | rfl
      · exact absurd rfl h1
      · exact absurd rfl h2
      · exact .err (by decide)
    · simp at h3
    · exact absurd h3 hw

theorem jslinkuhi_to (n : Nat) {y : YHyphens} {mz : Bool} {t : Str} (hns : ¬ Single y mz ('t' :: 'o' :: t)) :
    (jsRecN (n + 1)).slinkuhi y mz ('t' :: 'o' :: t) = .ok false :=
  ((agRec_recN (n + 1)).slinkuhi y mz _ hns).ok_of (recN_slinkuhi_to .linked n y mz t)

theorem jerrs_slinkuhi_recN (n : Nat) {y : YHyphens} {mz : Bool} {w : Str} (hw : ¬ Single y mz w) :
    JErrs [.notBrivla] ((jsRecN (n + 2)).slinkuhi y mz w) :=
  jerrs_isSlinkuhi (agRec_recN (n + 1)) hw fun t hns => by rw [jslinkuhi_to n hns]; exact .ok

/-! ## zi'evla -/

/-- What is known about the functions a call goes back into, as `Good` in `Err.lean`. -/
structure JsGood (J : JsRec) (k : Nat) : Prop where
  ag : ∃ R, AgRec R J
  slinkuhi : ∀ y mz v, ¬ Single y mz v → JErrs [.notBrivla] (J.slinkuhi y mz v)
  analyse : ∀ s v, (∀ d ∈ v, readChar d = [d]) → v.length < k → JErrs [.notBrivla, .decomposition] (J.analyse s v)

theorem jerrs_isBrivlaR {s : Settings} {v : Str} (h : JErrs [.notBrivla, .decomposition] (J.analyse s v)) :
    JErrs [.decomposition] (jsIsBrivlaR J s v) := by
  unfold jsIsBrivlaR
  split
  · exact .ok
  · exact .ok
  · rename_i e h1 h2
    have := h e h2
    simp at this
    rcases this with h3 | h3
    · exact absurd h3 h1
    · exact .err (by simp [h3])

/-- The exceptions of `checkZihevlaOrRafsi`. -/
def jsZihErrs : List JsErr := [.notZihevla, .notBrivla, .decomposition]

theorem jerrs_fallsApartBefore {y : YHyphens} {v : Str} {p : Nat}
    (h : ∀ j, 0 < j → ∀ s, JErrs [.notBrivla, .decomposition] (J.analyse s (v.drop j))) : ∀ k i, i + k ≤ p →
    (∀ j, i ≤ j → j < i + k → j < p) → JErrs jsZihErrs (jsFallsApartBefore J y v p k i) := by
  intro k
  induction k with
  | zero => intro i _ _; exact .ok
  | succ k ih =>
    intro i hi hj
    unfold jsFallsApartBefore
    have h0 := hj i (by omega) (by omega)
    exact .ite (fun _ => .bind
      ((jerrs_isBrivlaR (h (p - i) (by omega) _)).mono (by decide)) fun _ _ => .ite (fun _ => .err (by decide)) fun _ =>
        ih _ (by omega) (fun j h1 h2 => hj j (by omega) (by omega))) fun _ =>
        ih _ (by omega) (fun j h1 h2 => hj j (by omega) (by omega))

theorem jerrs_checkZihevlaOrRafsi {rz : Bool} {y : YHyphens} {ex mz : Bool} {v : Str} {k : Nat}
    (hJ : JsGood J k) (h0 : 0 < k) (hst : ∀ d ∈ v, readChar d = [d]) (hk : v.length ≤ k) (hy : v.getLast? ≠ some 'y')
    (hs : rz = false → ∀ st, zihScan mz v (v.length + 1) v {} = .ok st → st.clusterPos ≠ none → ¬ Single y mz v) :
    JErrs jsZihErrs (jsCheckZihevlaOrRafsi J rz y ex mz v) := by
  have hz : .notZihevla ∈ jsZihErrs := by decide
  have hd : ∀ j, 0 < j → ∀ s, JErrs [.notBrivla, .decomposition] (J.analyse s (v.drop j)) := by
    intro j hj s
    refine hJ.analyse _ _ (fun d hd => hst d (List.mem_of_mem_drop hd)) ?_
    rw [List.length_drop]; omega
  unfold jsCheckZihevlaOrRafsi
  refine .ite (fun _ => .err hz) fun hlen => .bind ((jerrs_zihScan mz v).mono (by decide)) fun st hst' =>
    .ite (fun _ => .err hz) fun _ => .bind ?_ fun _ _ => ?_
  · split
    · rename_i p hp
      refine .ite (fun h1 => .bind ((jerrs_isBrivlaR (hd p h1.2 _)).mono (by decide)) fun _ _ => .ite (fun _ => .err hz)
        fun _ => jerrs_fallsApartBefore hd _ _ (by omega) (by intro j h2 h3; omega)) fun _ => .ok
    · exact .ok
  · cases hcl : st.clusterPos with
    | none =>
      exact .ite (fun _ => .err hz) fun _ => .ite (fun _ => .err hz) fun _ =>
        .ite (fun _ => .err hz) fun _ => .ite (fun _ => .err hz) fun _ => .ok
    | some p =>
      have hns : ¬ Single y mz v := by
        cases rz with
        | false => exact hs rfl st (jsZihScan_py hst') (by rw [hcl]; simp)
        | true =>
          intro h
          have := (single_short h hy).1
          simp at hlen
          omega
      exact .ite (fun _ => .bind ((hJ.slinkuhi _ _ _ hns).mono (by decide)) fun _ _ => .ite (fun _ => .err hz) fun _ => .ok)
        fun _ => .ok

/-! ## The parts between y -/

/-- The exceptions of `analyseBrivla`. -/
def jsAnalyseErrs : List JsErr := [.notBrivla, .decomposition]

theorem jerrs_stripLeadingH (i : Nat) (p : Str) : JErrs jsAnalyseErrs (jsStripLeadingH i p) := by
  have h1 : .notBrivla ∈ jsAnalyseErrs := by decide
  unfold jsStripLeadingH
  exact .ite (fun _ => .err h1) fun _ => .ite (fun _ => .ite (fun _ => .err h1) fun _ => .ite (fun _ => .err h1) fun _ =>
    .bind ((jerrs_splitVowelCluster _).mono (by decide)) fun _ _ => .ite (fun _ => .err h1) fun _ => .ok) fun _ =>
    .ite (fun _ => .err h1) fun _ => .ok

theorem jsStripLeadingH_ok {i : Nat} {p part : Str} {lead : Bool} (h : jsStripLeadingH i p = .ok (part, lead)) :
    part ≠ [] ∧ p = (if lead then '\'' :: part else part) ∧ part.head? ≠ some '\'' := by
  unfold jsStripLeadingH at h
  cases p with
  | nil => simp at h
  | cons c cs =>
    rw [if_neg (by simp), jsAt_cons_zero] at h
    by_cases hc : c = '\''
    · subst hc
      simp only [if_true, List.drop_succ_cons, List.drop_zero] at h
      split at h
      · cases h
      · split at h
        · cases h
        · rename_i hv
          obtain ⟨sy, -, h⟩ := jbind_ok h
          have key : ∀ b : Bool, (if b = true then Except.error JsErr.notBrivla else .ok (cs, true)) = .ok (part, lead) →
              cs = part ∧ lead = true := by
            intro b; cases b <;> simp +contextual
          obtain ⟨rfl, rfl⟩ := key _ h
          · refine ⟨by rintro rfl; simp at *, rfl, ?_⟩
            intro hh
            cases cs with
            | nil => cases hh
            | cons d ds =>
              simp at hh
              subst hh
              rw [jsAt_cons_zero] at hv
              exact hv (by decide)
    · rw [if_neg (by simpa using hc)] at h
      split at h
      · cases h
      · cases h
        exact ⟨by simp, rfl, by simpa using hc⟩

theorem jerrs_partForm (ctx : ACtx) (i : Nat) (hc : Bool) (p : Str) : JErrs jsAnalyseErrs (jsPartForm ctx i hc p) := by
  unfold jsPartForm
  exact .ite (fun _ => .ite (fun _ => .err (by decide)) fun _ => .ok) fun _ => .ite (fun _ => .ok) fun _ => .ok

theorem jsPartForm_ok {ctx : ACtx} {i : Nat} {hc : Bool} {part : Str} {f : PartForm} (h : jsPartForm ctx i hc part = .ok f)
    (hne : part ≠ []) (hq : part.head? ≠ some '\'') :
    part = f.partCopy ++ (if f.trailingH then s%"'" else []) ∧
    f.part = f.partCopy ++ (if f.didAddA then s%"a" else []) ∧
    f.partA = part ++ s%"a" ∧
    (f.trailingH = true → ∃ l, f.partCopy.getLast? = some l ∧ Vowel l) ∧
    (f.didAddA = true → f.requireCluster = true) ∧
    (f.didAddA = false → f.trailingH = false → ¬ (i + 1 < ctx.yParts.length ∨ ctx.isCmevlatai = true)) ∧
    (f.canBeRafsi = false → f.didAddA = true) := by
  unfold jsPartForm at h
  dsimp only at h
  split at h
  · rename_i hl
    rw [jsLast_eq] at hl
    split at h
    · cases h
    · rename_i hv
      cases h
      have e : part = dropLastN part 1 ++ s%"'" := by
        unfold dropLastN
        obtain ⟨u, rfl⟩ : ∃ u, part = u ++ s%"'" := List.getLast?_eq_some_iff.1 hl
        simp
      refine ⟨by simpa using e, by simp, rfl, fun _ => ?_, by simp, by simp, by simp⟩
      dsimp only
      cases hd : (dropLastN part 1).getLast? with
      | none =>
        rw [List.getLast?_eq_none_iff] at hd
        rw [hd] at e
        rw [e] at hq
        exact absurd rfl hq
      | some l =>
        rw [jsLast_of hd, jsIsVowel_one] at hv
        exact ⟨l, rfl, (isVowel_iff l).1 (by simpa using hv)⟩
  · split at h
    · cases h
      simp
    · rename_i hn
      cases h
      simpa using hn

theorem jerrs_tryKaha {ctx : ACtx} {f : PartForm} (h : ∀ s, JErrs [.notBrivla, .decomposition] (J.analyse s f.partA)) :
    JErrs jsAnalyseErrs (jsTryKaha J ctx f) := by
  have h1 : .notBrivla ∈ jsAnalyseErrs := by decide
  unfold jsTryKaha
  refine .bind (.ite (fun _ => ?_) fun _ => .ok) fun _ _ => ?_
  · split
    · rename_i he
      have := h _ _ he
      simp at this
    · exact .ok
    · exact .ite (fun _ => .err h1) fun _ => .ok
  · split
    · exact .ok
    · exact .ok
    · exact .ok
    · rename_i e h3 h4 h5 he
      have := jerrs_jvokaha2 _ _ _ e he
      simp [jsKahaErrs] at this
      rcases this with h6 | h6 | h6
      · exact absurd h6 h3
      · exact absurd h6 h4
      · exact .err (by simp [jsAnalyseErrs, h6])
    · split
      · exact .ok
      · exact .ite (fun _ => .err h1) fun _ => .ok
      · exact .ok

theorem jsTryKaha_no {ctx : ACtx} {f : PartForm} {found : List Str} (h : jsTryKaha J ctx f = .ok (found, false)) {arr : List Str}
    (ha : jvokaha2 ctx.s.yHyphens ctx.s.allowMz f.partCopy = .ok arr) : arr = [] := by
  unfold jsTryKaha at h
  obtain ⟨_, _, h⟩ := jbind_ok h
  rw [jsJvokaha2_eq, ha] at h
  match arr, h with
  | [], _ => rfl
  | [p], h =>
    simp only [Except.mapError] at h
    split at h <;> cases h
  | _ :: _ :: _, h => cases h

theorem jerrs_tosmabruTest {ctx : ACtx} {f : PartForm} (hR : AgRec R J)
    (h : ∀ y mz v, ¬ Single y mz v → JErrs [.notBrivla] (J.slinkuhi y mz v)) : JErrs jsAnalyseErrs (jsTosmabruTest J ctx f) := by
  have h1 : .notBrivla ∈ jsAnalyseErrs := by decide
  unfold jsTosmabruTest
  extract_lets toPart smabru0 smabru
  refine .ite (fun _ => .ok) fun _ => .ite (fun _ => .err h1) fun _ => ?_
  have := jerrs_jvokaha hR (co := .cluster) (g := false) (w := smabru) (fun v _ => h ctx.s.yHyphens ctx.s.allowMz v)
  split
  · exact .err h1
  · exact .ok
  · exact .ok
  · exact .ok
  · rename_i e h3 h4 h5 he
    rcases this e he with h6 | ⟨h6, -⟩
    · simp [jsKahaErrs] at h6
      rcases h6 with h6 | h6 | h6
      · exact absurd h6 h3
      · exact absurd h6 h4
      · exact .err (by simp [jsAnalyseErrs, h6])
    · exact absurd h6 h5

theorem jerrs_analysePart {ctx : ACtx} {i : Nat} {p : Str} {st : AState} {k : Nat}
    (hJ : JsGood J k) (hst : ∀ d ∈ p, readChar d = [d]) (hk : p.length + 1 < k) (hy : 'y' ∉ p)
    (hlast : i + 1 < ctx.yParts.length ∨ ctx.isCmevlatai = true ∨ ∃ c, p.getLast? = some c ∧ Vowel c) :
    JErrs jsAnalyseErrs (jsAnalysePart J ctx i p st) := by
  have h1 : .notBrivla ∈ jsAnalyseErrs := by decide
  obtain ⟨R, hR⟩ := hJ.ag
  unfold jsAnalysePart
  refine .bind (jerrs_stripLeadingH _ _) fun ⟨part, lead⟩ hs => .ite (fun _ => .ok) fun _ =>
    .bind (jerrs_partForm _ _ _ _) fun f hf => ?_
  obtain ⟨hne, hp0, hq⟩ := jsStripLeadingH_ok hs
  obtain ⟨e1, e2, e3, e5, e6, e7, e8⟩ := jsPartForm_ok hf hne hq
  have hlen : part.length ≤ p.length := by rw [hp0]; split <;> simp
  have hmem : ∀ d ∈ part, d ∈ p := by
    intro d hd; rw [hp0]; split <;> simp [hd]
  have hplast : p.getLast? = part.getLast? := by
    rw [hp0]
    split
    · rw [List.getLast?_cons_of_ne_nil hne]
    · rfl
  have ha : readChar 'a' = ['a'] := by decide
  have hmemA : ∀ d ∈ part ++ s%"a", readChar d = [d] ∧ d ≠ 'y' := by
    intro d hd
    rcases List.mem_append.1 hd with hd | hd
    · exact ⟨hst d (hmem d hd), by rintro rfl; exact hy (hmem _ hd)⟩
    · simp at hd; subst hd; exact ⟨ha, by decide⟩
  have hA : ∀ s, JErrs [.notBrivla, .decomposition] (J.analyse s f.partA) := by
    intro s
    apply hJ.analyse
    · intro d hd
      rw [e3] at hd
      exact (hmemA d hd).1
    · rw [e3]; simp; omega
  have hcopy : ∀ d ∈ f.partCopy, d ∈ part := by
    intro d hd; rw [e1]; simp [hd]
  have hcl : f.partCopy.length ≤ part.length := by
    have := congrArg List.length e1
    rw [List.length_append] at this
    omega
  have hP : ∀ d ∈ f.part, readChar d = [d] ∧ d ≠ 'y' := by
    intro d hd
    rw [e2] at hd
    rcases List.mem_append.1 hd with hd | hd
    · exact hmemA d (List.mem_append_left _ (hcopy _ hd))
    · split at hd
      · exact hmemA d (List.mem_append_right _ hd)
      · simp at hd
  have hPl : f.part.length ≤ k := by
    rw [e2, List.length_append]
    split <;> simp <;> omega
  have hPv : ∃ c, f.part.getLast? = some c ∧ Vowel c := by
    rw [e2]
    cases hA : f.didAddA with
    | true => exact ⟨'a', by simp, by decide⟩
    | false =>
      simp
      cases hT : f.trailingH with
      | true => exact e5 hT
      | false =>
        have e7 := e7 hA hT
        rw [hT] at e1
        simp at e1
        rw [← e1, ← hplast]
        rcases hlast with h | h | h
        · exact absurd (.inl h) e7
        · exact absurd (.inr h) e7
        · exact h
  refine .bind (.ite (fun _ => jerrs_tryKaha hA) fun _ => .ok) fun ⟨found, did⟩ hfd => ?_
  dsimp only
  refine .ite (fun _ => .ite (fun _ => .err h1) fun _ => .bind (.ite (fun _ => jerrs_tosmabruTest hR hJ.slinkuhi) fun _ => .ok)
    fun _ _ => .ok) fun hdid => .bind ?_ fun sh _ => .bind (.ite (fun _ => ?_) fun _ => .ok) fun _ _ => .ok
  · have := jerrs_checkZihevlaOrRafsi (rz := f.requireCluster || !ctx.s.expRafsi) (y := ctx.s.yHyphens) (ex := ctx.s.expRafsi)
      (mz := ctx.s.allowMz) (v := f.part) hJ (by omega) (fun d hd => (hP d hd).1) hPl
      (fun hl => (hP _ (List.mem_of_getLast? hl)).2 rfl) (by
        intro hrz st hst hcl hs
        obtain ⟨a, b, c, e, hab, hc⟩ := single_ccv hs hPv hst hcl
        have hA : f.didAddA = false := by
          cases hA : f.didAddA with
          | false => rfl
          | true => rw [e6 hA] at hrz; cases hrz
        have hcb : f.canBeRafsi = true := by
          cases hcb : f.canBeRafsi with
          | true => rfl
          | false => rw [e8 hcb] at hA; cases hA
        rw [if_pos hcb] at hfd
        have hdf : did = false := by simpa using hdid
        subst hdf
        have hpc : f.partCopy = [a, b, c] := by
          rw [hA] at e2
          simp at e2
          rw [← e2, e]
        have := jsTryKaha_no hfd (arr := [[a, b, c]]) (by rw [hpc]; exact cut_ccv hab hc)
        cases this)
    split
    · exact .err h1
    · rename_i x hx
      intro e he
      have := this e he
      simp [jsZihErrs] at this
      rcases this with rfl | rfl | rfl
      · exact absurd he hx
      · decide
      · decide
  · have := jerrs_jvokaha2 ctx.s.yHyphens ctx.s.allowMz f.part
    split
    · exact .err h1
    · exact .ok
    · exact .ok
    · rename_i e h3 h4 he
      have := this e he
      simp [jsKahaErrs] at this
      rcases this with h6 | h6 | h6
      · exact absurd h6 h3
      · exact absurd h6 h4
      · exact .err (by simp [jsAnalyseErrs, h6])

theorem jerrs_analyseLoop {ctx : ACtx} {k : Nat} (hJ : JsGood J k) : ∀ {ps : List Str} {i : Nat} {st : AState},
    (∀ p ∈ ps, (∀ d ∈ p, readChar d = [d]) ∧ p.length + 1 < k ∧ 'y' ∉ p) → i + ps.length = ctx.yParts.length →
    (ctx.isCmevlatai = true ∨ ∀ p, ps.getLast? = some p → ∃ c, p.getLast? = some c ∧ Vowel c) →
    JErrs jsAnalyseErrs (jsAnalyseLoop J ctx i ps st) := by
  intro ps
  induction ps with
  | nil => intro i st _ _ _; exact .ok
  | cons p ps ih =>
    intro i st h hlen hl
    rw [List.length_cons] at hlen
    have hp := h p (by simp)
    unfold jsAnalyseLoop
    refine .bind (jerrs_analysePart hJ hp.1 hp.2.1 hp.2.2 ?_) fun _ _ => ih (fun q hq => h q (by simp [hq])) (by omega) ?_
    · cases ps with
      | nil =>
        rcases hl with hl | hl
        · exact .inr (.inl hl)
        · exact .inr (.inr (hl p rfl))
      | cons q qs => left; simp at hlen; omega
    · rcases hl with hl | hl
      · exact .inl hl
      · cases ps with
        | nil => right; intro p hp; cases hp
        | cons q qs => right; intro p' hp'; exact hl p' (by rw [List.getLast?_cons_cons]; exact hp')

theorem jerrs_analyseY {s : Settings} {cm : Bool} {v : Str} {a : Char} (hJ : JsGood J v.length) (hst : ∀ d ∈ v, readChar d = [d])
    (h0 : v.head? = some a) (ha : a ≠ 'y') (hn : (splitOn 'y' v).length ≠ 1)
    (hl : if cm then ∃ c, v.getLast? = some c ∧ Consonant c else ∃ c, v.getLast? = some c ∧ Vowel c) :
    JErrs jsAnalyseErrs (jsAnalyseY J s cm v (splitOn 'y' v)) := by
  have h1 : .notBrivla ∈ jsAnalyseErrs := by decide
  obtain ⟨R, hR⟩ := hJ.ag
  obtain ⟨z, hz, hzy⟩ : ∃ z, v.getLast? = some z ∧ z ≠ 'y' := by
    cases cm with
    | true => obtain ⟨c, h, hc⟩ := hl; exact ⟨c, h, by rintro rfl; exact absurd hc (by decide)⟩
    | false =>
      simp at hl
      obtain ⟨c, h, hc⟩ := hl; exact ⟨c, h, by rintro rfl; exact absurd hc (by decide)⟩
  have hnl : v.getLast? ≠ some 'y' := by rw [hz]; simpa using hzy
  have hym : 'y' ∈ v := by
    refine Classical.byContradiction fun hy => hn ?_
    rw [splitOn_of_not_mem hy]
    rfl
  have hp := splitOn_part_length h0 ha hz hzy hn
  unfold jsAnalyseY
  refine .bind (jerrs_analyseLoop hJ (fun p hp' => ⟨fun d hd => hst d ((hp p hp').2 d hd), (hp p hp').1, splitOn_not_mem 'y' v p hp'⟩)
    (by simp) ?_) fun st _ => .ite (fun _ => .err h1) fun _ => .bind (.ite (fun _ => ?_) fun _ => .ok) fun _ _ =>
    .ite (fun _ => .err h1) fun _ => .ok
  · cases cm with
    | true => exact .inl rfl
    | false =>
      right
      intro p hp
      simp at hl
      obtain ⟨c, hc, hv⟩ := hl
      obtain ⟨init, q, e, hq⟩ := splitOn_getLast (c := 'y') hc (by rintro rfl; exact absurd hv (by decide))
      rw [e] at hp
      simp at hp
      subst hp
      exact ⟨c, hq, hv⟩
  · exact (jerrs_isSlinkuhi hR (fun hs => (single_short hs hnl).2.1 hym) fun t hns => hJ.slinkuhi _ _ _ hns).mono (by decide)

theorem jerrs_analyseR {s : Settings} {w : Str} (hJ : JsGood J (reading w).length) : JErrs jsAnalyseErrs (jsAnalyseR J s w) := by
  have h1 : .notBrivla ∈ jsAnalyseErrs := by decide
  obtain ⟨R, hR⟩ := hJ.ag
  unfold jsAnalyseR
  simp only [jsNormalise_eq]
  have hst : ∀ d ∈ reading w, readChar d = [d] := fun d => reading_chars
  generalize reading w = v at hJ hst
  refine .ite (fun _ => .err h1) fun hne => .ite (fun _ => .err h1) fun hcv => .ite (fun _ => .err h1) fun _ => .ite (fun _ => .ok) fun _ => ?_
  cases v with
  | nil => simp at hne
  | cons c0 cs =>
    obtain ⟨l, hl⟩ : ∃ l, (c0 :: cs).getLast? = some l := by
      cases h : (c0 :: cs).getLast? with
      | none => simp at h
      | some l => exact ⟨l, rfl⟩
    rw [jsLast_of hl, jsIsConsonant_one, jsIsVowel_one] at hcv
    rw [jsLast_of hl, jsIsConsonant_one]
    have hl' : if isConsonant l then ∃ c, (c0 :: cs).getLast? = some c ∧ Consonant c else ∃ c, (c0 :: cs).getLast? = some c ∧ Vowel c := by
      split
      · rename_i h; exact ⟨l, hl, (isConsonant_iff l).1 h⟩
      · rename_i h
        refine ⟨l, hl, (isVowel_iff l).1 ?_⟩
        simp at hcv h
        exact hcv h
    have hnl : (c0 :: cs).getLast? ≠ some 'y' := by
      rw [hl]
      rintro ⟨⟩
      exact hcv (by decide)
    have hrest : JErrs jsAnalyseErrs (jsAnalyseRest J s (isConsonant l) (c0 :: cs)) := by
      unfold jsAnalyseRest
      refine .ite (fun _ => .err h1) fun hc => .ite (fun _ => .ite (fun _ => .err h1) fun _ => ?_) fun hn => ?_
      · have := jerrs_checkZihevlaOrRafsi (rz := true) (y := s.yHyphens) (ex := s.expRafsi) (mz := s.allowMz) hJ (by simp) hst (Nat.le_refl _) hnl nofun
        split
        · exact .ok
        · exact .err h1
        · rename_i e hne he
          have := this e he
          simp [jsZihErrs] at this
          rcases this with rfl | rfl | rfl
          · exact absurd rfl hne
          · exact .err (by decide)
          · exact .err (by decide)
      · refine jerrs_analyseY hJ hst rfl ?_ hn hl'
        rintro rfl
        rw [jsAt_cons_zero] at hc
        exact hc (by decide)
    have hk := jerrs_jvokaha hR (co := s.consonants) (g := s.glides) (w := c0 :: cs) (fun v _ => hJ.slinkuhi s.yHyphens s.allowMz v)
    split
    · exact .ok
    · exact hrest
    · exact hrest
    · exact hrest
    · rename_i e h3 h4 h5 he
      rcases hk e he with h6 | ⟨h6, -⟩
      · simp [jsKahaErrs] at h6
        rcases h6 with h6 | h6 | h6
        · exact absurd h6 h3
        · exact absurd h6 h4
        · exact .err (by simp [jsAnalyseErrs, h6])
      · exact absurd h6 h5

/-! ## The recursion budget suffices -/

theorem jsGood_recN : ∀ k, JsGood (jsRecN (k + 2)) k := by
  intro k
  induction k with
  | zero => exact ⟨⟨_, agRec_recN _⟩, fun y mz v hs => jerrs_slinkuhi_recN 0 hs, fun s v _ hv => by omega⟩
  | succ k ih =>
    refine ⟨⟨_, agRec_recN _⟩, fun y mz v hs => jerrs_slinkuhi_recN _ hs, fun s v hst hv => ?_⟩
    have hlen := reading_length_stable hst
    exact jerrs_analyseR (J := jsRecN (k + 2)) ⟨ih.ag, ih.slinkuhi, fun s u h1 h2 => ih.analyse s u h1 (by omega)⟩

theorem JsGood.mono {k k' : Nat} (h : JsGood J k) (hk : k' ≤ k) : JsGood J k' :=
  ⟨h.ag, h.slinkuhi, fun s v h1 h2 => h.analyse s v h1 (by omega)⟩

theorem jerrs_analyseR_recN {n : Nat} {s : Settings} {w : Str} (hn : 2 * w.length + 2 ≤ n) :
    JErrs jsAnalyseErrs (jsAnalyseR (jsRecN n) s w) := by
  have hlen := reading_length w
  have h := (jsGood_recN (n - 2)).mono (k' := (reading w).length) (by omega)
  rw [show n - 2 + 2 = n by omega] at h
  exact jerrs_analyseR h

theorem jerrs_analyseBrivla (s : Settings) (w : Str) : JErrs jsAnalyseErrs (jsAnalyseBrivla s w) :=
  jerrs_analyseR_recN (by simp [budget])

end Jvotci
