import Verif.Lemmas.Table

/-!
# Helper lemmas: which exceptions each function can raise

`Errs E x`: if `x` is an error, it is one of `E`.  None of the lists below contains `fuel`, so these lemmas
also show that the local loops of the model never run out of fuel.
-/

namespace Jvotci

open Spec

def Errs {α : Type} (E : List Err) (x : Except Err α) : Prop := ∀ e, x = .error e → e ∈ E

theorem Errs.ok {α : Type} {E : List Err} {a : α} : Errs E (Except.ok a) := fun _ h => by cases h

theorem Errs.err {α : Type} {E : List Err} {e : Err} (h : e ∈ E) : Errs E (Except.error e : Except Err α) :=
  fun _ h' => by cases h'; exact h

theorem Errs.mono {α : Type} {E E' : List Err} {x : Except Err α} (h : Errs E x) (hs : ∀ e ∈ E, e ∈ E') :
    Errs E' x := fun e he => hs e (h e he)

theorem Errs.bind {α β : Type} {E : List Err} {x : Except Err α} {f : α → Except Err β}
    (h : Errs E x) (hf : ∀ a, x = .ok a → Errs E (f a)) : Errs E (x >>= f) := by
  cases x with
  | error e => intro e' he; cases he; exact h e rfl
  | ok a => exact hf a rfl

theorem Errs.ite {α : Type} {E : List Err} {p : Prop} [Decidable p] {x y : Except Err α}
    (h1 : p → Errs E x) (h2 : ¬ p → Errs E y) : Errs E (if p then x else y) := by
  split
  · exact h1 ‹_›
  · exact h2 ‹_›

theorem errs_idx {E : List Err} (h : .index ∈ E) (s : Str) (i : Nat) : Errs E (idx s i) := by
  unfold idx; split
  · exact .ok
  · exact .err h

theorem errs_idxLast {E : List Err} (h : .index ∈ E) (s : Str) : Errs E (idxLast s) := by
  unfold idxLast; split
  · exact .ok
  · exact .err h

/-! ## Cutting rafsi -/

/-- The exceptions of `jvokaha_2`. -/
def kahaErrs : List Err := [.decomposition, .invalidCluster, .notBrivla, .index]

theorem errs_takeHyphen (y : YHyphens) (l : Str) (res : List Str) : Errs kahaErrs (takeHyphen y l res) := by
  unfold takeHyphen
  split
  · exact .ok
  · refine .ite (fun _ => .ok) fun _ => ?_
    split
    · exact .ok
    · refine .ite (fun _ => .ok) fun _ => .bind ?_ fun _ _ => .ite (fun _ => .ok) fun _ => .ite (fun _ => .ok) fun _ => .ok
      refine .ite (fun _ => .ite (fun _ => .ok) fun _ => .ite (fun _ => ?_) fun _ => .ok) fun _ => .ok
      split
      · exact .err (by decide)
      · exact .ok

theorem errs_takeRafsi (mz : Bool) (o l : Str) : Errs kahaErrs (takeRafsi mz o l) := by
  unfold takeRafsi
  refine .ite (fun _ => .ok) fun _ => .ite (fun _ => .ok) fun _ => .ite (fun _ => .err (by decide)) fun _ =>
    .ite (fun _ => .ok) fun _ => .ite (fun _ => .ok) fun _ => .ite (fun _ => .ite (fun _ => .err (by decide)) fun _ => .ok)
    fun _ => .ite (fun _ => .ite (fun _ => .err (by decide)) fun _ => .ite (fun _ => .err (by decide)) fun _ => .ok)
    fun _ => .err (by decide)

theorem errs_jvokaha2Loop {y : YHyphens} {mz : Bool} {orig : Str} : ∀ {fuel : Nat} {l : Str} {res : List Str},
    l.length < fuel → Errs kahaErrs (jvokaha2Loop y mz orig fuel l res) := by
  intro fuel
  induction fuel with
  | zero => intro l res h; omega
  | succ fuel ih =>
    intro l res hl
    unfold jvokaha2Loop
    refine .ite (fun _ => .ok) fun hne => .bind (errs_takeHyphen _ _ _) fun o ho => ?_
    have hpos : 0 < l.length := by
      cases l with
      | nil => exact absurd rfl hne
      | cons => simp
    split
    · rename_i hy
      obtain ⟨p, ps, rfl, hp, hcase⟩ := takeHyphen_some ho
      apply ih
      have : 0 < hy.length := by
        rcases hcase with ⟨rfl, _⟩ | ⟨rfl, _⟩ | ⟨rfl, _⟩ | ⟨rfl, _⟩ <;> simp
      rw [List.length_drop]
      omega
    · refine .bind (errs_takeRafsi _ _ _) fun cut hcut => ?_
      rcases takeRafsi_ok hcut with ⟨p, rest, he, hc, rfl⟩ | ⟨p, rest, he, hp, hc, rfl⟩ | ⟨hc, rfl⟩
      · dsimp only
        apply ih
        have := congrArg List.length he
        rw [List.length_append] at this
        have := hc.length_pos
        omega
      · dsimp only
        apply ih
        have := congrArg List.length he
        simp only [List.length_append, List.length_cons] at this
        have := hc.length_pos
        omega
      · exact .ok

theorem errs_jvokaha2 (y : YHyphens) (mz : Bool) (w : Str) : Errs kahaErrs (jvokaha2 y mz w) :=
  errs_jvokaha2Loop (by omega)

theorem errs_comparePiecesLoop (other : List Str) : ∀ (corr : List Str) (i : Nat),
    Errs [.index] (comparePiecesLoop other corr i) := by
  intro corr
  induction corr with
  | nil => intro i; exact .ok
  | cons p corr ih =>
    intro i
    have key : ∀ j, Errs [.index] (match other[j]? with
        | none => .error .index
        | some o => if p = o then comparePiecesLoop other corr (j + 1) else .ok false) := by
      intro j
      split
      · exact .err (by decide)
      · exact .ite (fun _ => ih _) fun _ => .ok
    unfold comparePiecesLoop
    split
    · exact .err (by decide)
    · exact .ite (fun _ => ih _) fun _ => key _

/-! ## The search -/

theorem errs_newConsonants (o : CombineOpts) (l r h : Str) (n : Nat) : Errs [.index] (newConsonants o l r h n) := by
  unfold newConsonants
  refine .ite (fun _ => .ok) fun _ => .ite (fun _ => .ite (fun _ => ?_) fun _ => .ok) fun _ => .ok
  split
  · exact .ite (fun _ => .ok) fun _ => .ok
  · exact .err (by decide)

theorem errs_combine (o : CombineOpts) (l r : Str) (lc rc : Nat) (sc : Int) (il : List (Nat × Nat)) (t : Tos) :
    Errs [.index] (combine o l r lc rc sc il t) := by
  unfold combine
  split
  · refine .ite (fun _ => .ok) fun _ => .ite (fun _ => .ok) fun _ => .ite (fun _ => .ok) fun _ =>
      .ite (fun _ => .ok) fun _ => .ite (fun _ => .ok) fun _ => ?_
    split
    · exact .ok
    · split
      · exact .ok
      · exact .bind (errs_newConsonants _ _ _ _ _) fun _ _ => .ok
  · exact .err (by decide)

theorem errs_updateCurrentBest (c : Option Cand) (b : Best) : Errs [.index] (updateCurrentBest c b) := by
  unfold updateCurrentBest
  split
  · exact .ok
  · exact .bind (errs_idxLast (by decide) _) fun _ _ => .ok

theorem errs_foldlM {α β : Type} {E : List Err} {f : β → α → Except Err β} (h : ∀ b a, Errs E (f b a)) :
    ∀ (l : List α) (b : β), Errs E (l.foldlM f b) := by
  intro l
  induction l with
  | nil => intro b; exact .ok
  | cons a l ih => intro b; rw [List.foldlM_cons]; exact .bind (h b a) fun _ _ => ih _

theorem errs_searchStages (o : CombineOpts) (ll : List (List RafsiOpt)) : Errs [.index] (searchStages o ll) := by
  unfold searchStages
  split
  · exact .err (by decide)
  · exact .ite (fun _ => .ok) fun _ => .err (by decide)
  · refine .bind ?_ fun b _ => ?_
    · unfold firstStage
      exact errs_foldlM (fun _ _ => errs_foldlM (fun _ _ => .bind (errs_combine _ _ _ _ _ _ _ _)
        fun _ _ => errs_updateCurrentBest _ _) _ _) _ _
    · refine errs_foldlM (fun b l => ?_) _ _
      unfold nextStage
      exact errs_foldlM (fun _ _ => errs_foldlM (fun _ _ => errs_foldlM (fun _ _ => errs_foldlM (fun _ _ =>
        .bind (errs_combine _ _ _ _ _ _ _ _) fun _ _ => errs_updateCurrentBest _ _) _ _) _ _) _ _) _ _

/-! ## Vowel clusters and zi'evla -/

theorem lastN_length (s : Str) (n : Nat) (h : n ≤ s.length) : (lastN s n).length = n := by
  unfold lastN; rw [List.length_drop]; omega

theorem dropLastN_length (s : Str) (n : Nat) : (dropLastN s n).length = s.length - n := by
  unfold dropLastN; rw [List.length_take]; omega

theorem errs_splitVowelsLoop : ∀ {fuel : Nat} {v : Str} {res : List Str}, v.length < fuel →
    Errs [.decomposition] (splitVowelsLoop fuel v res) := by
  intro fuel
  induction fuel with
  | zero => intro v res h; omega
  | succ fuel ih =>
    intro v res h
    unfold splitVowelsLoop
    refine .ite (fun h1 => .ite (fun _ => .err (by decide)) fun _ => ih ?_) fun _ =>
      .ite (fun h1 => .ite (fun _ => .err (by decide)) fun _ => ih ?_) fun _ =>
      .ite (fun _ => .ok) fun _ => .err (by decide)
    · rw [dropLastN_length]; omega
    · rw [dropLastN_length]; omega

theorem errs_splitVowelCluster (v : Str) : Errs [.decomposition] (splitVowelCluster v) :=
  errs_splitVowelsLoop (by omega)

theorem errs_zihConsonants (mz : Bool) (chunk : Str) (st : ZState) : Errs [.notZihevla] (zihConsonants mz chunk st) := by
  unfold zihConsonants
  exact .ite (fun _ => .err (by decide)) fun _ => .ite (fun _ => .err (by decide)) fun _ =>
    .ite (fun _ => .err (by decide)) fun _ => .ite (fun _ => .err (by decide)) fun _ =>
    .ite (fun _ => .err (by decide)) fun _ => .ite (fun _ => .err (by decide)) fun _ => .ok

theorem errs_zihVowels (v chunk : Str) (st : ZState) : Errs [.notZihevla] (zihVowels v chunk st) := by
  unfold zihVowels
  split
  · exact .err (by decide)
  · rename_i e h1 h2
    have := errs_splitVowelCluster chunk e h2
    simp at this
    exact absurd this h1
  · dsimp only
    exact .ite (fun _ => .err (by decide)) fun _ => .ite (fun _ => .err (by decide)) fun _ => .ok

theorem dropWhile_length_lt {p : Char → Bool} {c : Char} {cs : Str} (h : p c = true) :
    ((c :: cs).dropWhile p).length < (c :: cs).length := by
  rw [List.dropWhile_cons, if_pos h]
  have := (List.dropWhile_sublist p (l := cs)).length_le
  simp only [List.length_cons]
  omega

theorem errs_zihScan {mz : Bool} {v : Str} : ∀ {fuel : Nat} {rest : Str} {st : ZState}, rest.length < fuel →
    Errs [.notZihevla] (zihScan mz v fuel rest st) := by
  intro fuel
  induction fuel with
  | zero => intro rest st h; omega
  | succ fuel ih =>
    intro rest st h
    cases rest with
    | nil => unfold zihScan; exact .ok
    | cons c cs =>
      unfold zihScan
      refine .ite (fun h1 => .bind (errs_zihConsonants _ _ _) fun _ _ => ih ?_) fun _ =>
        .ite (fun h1 => .bind (errs_zihVowels _ _ _) fun _ _ => ih ?_) fun _ => .ite (fun _ =>
          .ite (fun _ => .err (by decide)) fun _ => .ite (fun _ => .err (by decide)) fun _ => ih ?_) fun _ =>
          .err (by decide)
      · have := dropWhile_length_lt (cs := cs) h1; omega
      · have := dropWhile_length_lt (cs := cs) h1; omega
      · simp at h; omega

/-! ## The recursive functions -/

/-- `NameError`, in the pinned program only. -/
def nameErrs : Build → List Err
  | .pinned => [.name]
  | .linked => []

/-- The exceptions of `is_slinkuhi`. -/
def slinkuhiErrs (b : Build) : List Err := [.notBrivla, .index] ++ nameErrs b

/-- The exceptions of `jvokaha`. -/
def jvokahaErrs (b : Build) : List Err := kahaErrs ++ nameErrs b

/-- The exceptions of `analyse_brivla`. -/
def analyseErrs (b : Build) : List Err := [.notBrivla, .index, .decomposition] ++ nameErrs b

/-- The exceptions of `check_zihevla_or_rafsi`. -/
def zihevlaErrs (b : Build) : List Err := [.notZihevla, .notBrivla, .index, .decomposition] ++ nameErrs b

/-- The exceptions of `get_lujvo`. -/
def lujvoErrs (b : Build) : List Err :=
  [.noLujvo, .nonLojban, .notZihevla, .notBrivla, .index, .decomposition, .invalidCluster] ++ nameErrs b

theorem errs_slinkuhiInJvozba {R : Rec} {y : YHyphens} {mz : Bool} {v : Str}
    (h : Errs (slinkuhiErrs R.build) (R.slinkuhi y mz v)) :
    Errs (slinkuhiErrs R.build) (slinkuhiInJvozba R y mz v) := by
  unfold slinkuhiInJvozba
  cases hb : R.build with
  | pinned => exact .err (by simp [slinkuhiErrs, nameErrs])
  | linked => rw [hb] at h; exact h

theorem getLujvoFromList_first {s : Settings} {g : Bool} {xs : List Str}
    (hx : ∀ x ∈ xs, Rafsi s.allowMz x) {best : Best} {r : Str × Int × List (Nat × Nat)}
    (hbest : searchStages (combineOpts s g)
      (xs.mapIdx (fun j x => cllForms x (rafsiTarmi x) (0 + j == 0)
        (0 + j + 1 == (xs.map (fun x => s%"-" ++ x ++ s%"-")).length) s.consonants)) = .ok best)
    (hr : pickBest g best = some r) : ∃ x rest t, xs = x :: rest ∧ r.1 = x ++ t := by
  obtain ⟨l, hm, hl⟩ := pickBest_mem hr
  obtain ⟨rs, c, hp, hbt, l', hl', he⟩ := searchStages_sound hbest _ hm
  simp only [Prod.mk.injEq] at he
  obtain ⟨-, he⟩ := he
  obtain ⟨r0, rest, t, rfl, hc⟩ := hbt.prefix
  cases xs with
  | nil => cases hp
  | cons x xs =>
    rw [List.mapIdx_cons] at hp
    cases hp with
    | cons h0 _ =>
      refine ⟨x, xs, ?_⟩
      rw [he]
      dsimp only
      rw [hc]
      rcases cllForms_mem h0 with h0 | h0 | h0 | h0 <;> rw [h0]
      · exact ⟨_, rfl, rfl⟩
      · exact ⟨_, rfl, List.append_assoc ..⟩
      · exact ⟨_, rfl, List.append_assoc ..⟩
      · exact ⟨_, rfl, List.append_assoc ..⟩

theorem errs_getLujvoFromList_cll {R : Rec} {s : Settings} {g : Bool} {xs : List Str}
    (hx : ∀ x ∈ xs, Rafsi s.allowMz x)
    (hs : ∀ x rest t, xs = x :: rest → Errs (slinkuhiErrs R.build) (R.slinkuhi s.yHyphens s.allowMz (x ++ t))) :
    Errs (.noLujvo :: slinkuhiErrs R.build)
      (getLujvoFromList R s g (xs.map (fun x => s%"-" ++ x ++ s%"-"))) := by
  unfold getLujvoFromList getRafsiListList
  rw [rafsiListListFrom_cll hx]
  refine .bind .ok fun ll hll => .bind ((errs_searchStages _ _).mono (by simp [slinkuhiErrs])) fun best hbest => ?_
  cases hll
  split
  · exact .err (by simp)
  · rename_i r hr
    refine .ite (fun hg => .bind ?_ fun b _ => .ite (fun _ => .err (by simp)) fun _ => .ok) fun _ => .ok
    obtain ⟨x, rest, t, hxs, hrt⟩ := getLujvoFromList_first hx hbest hr
    rw [hrt]
    exact (errs_slinkuhiInJvozba (hs x rest t hxs)).mono (by intro e he; exact List.mem_cons_of_mem _ he)

theorem errs_jvokaha {R : Rec} {y : YHyphens} {co : Consonants} {g mz : Bool} {w : Str}
    (hs : ∀ v, v.take 3 = w.take 3 → Errs (slinkuhiErrs R.build) (R.slinkuhi y mz v)) :
    Errs (jvokahaErrs R.build) (jvokaha R y co g mz w) := by
  unfold jvokaha
  refine .bind ((errs_jvokaha2 _ _ _).mono (by intro e he; exact List.mem_append_left _ he)) fun arr harr => ?_
  dsimp only
  refine .ite (fun _ => .err (by simp [jvokahaErrs, kahaErrs])) fun _ => ?_
  obtain ⟨hj, hch⟩ := jvokaha2_ok harr
  split
  · exact .err (by simp [jvokahaErrs, kahaErrs])
  · refine .bind (errs_idxLast (by simp [jvokahaErrs, kahaErrs]) _) fun l _ => .bind ?_ fun r _ => ?_
    · have h := errs_getLujvoFromList_cll (R := R)
        (s := { yHyphens := y, consonants := co, glides := g, allowMz := mz }) (g := isConsonant l)
        (xs := arr.filter (fun x => x.length > 2)) hch.filter (by
          intro x rest t he
          apply hs
          cases arr with
          | nil => simp at he
          | cons p ps =>
            have hlen := hch.head.1.length_pos
            rw [List.filter_cons_of_pos (by simp; omega)] at he
            cases he
            rw [← hj, join, List.flatten_cons, List.take_append_of_le_length hlen,
              List.take_append_of_le_length hlen])
      split
      · exact .err (by simp [jvokahaErrs, kahaErrs])
      · rename_i x hx
        intro e he
        have h2 := h e he
        rcases List.mem_cons.1 h2 with rfl | h2
        · exact absurd he hx
        · revert h2
          simp only [slinkuhiErrs, jvokahaErrs, kahaErrs, List.mem_append, List.mem_cons]
          rintro ((h | h | h) | h)
          · simp [h]
          · simp [h]
          · cases h
          · simp [h]
    · refine .bind (.ite (fun _ => .ok) fun _ => .bind
        ((errs_jvokaha2 _ _ _).mono (by intro e he; exact List.mem_append_left _ he)) fun corr _ =>
        (errs_comparePiecesLoop _ _ _).mono (by simp [jvokahaErrs, kahaErrs])) fun good _ =>
        .ite (fun _ => .ok) fun _ => .err (by simp [jvokahaErrs, kahaErrs])

theorem errs_succeeds {α : Type} {b : Build} {x : Except Err α} (h : Errs (jvokahaErrs b) x) :
    Errs (slinkuhiErrs b) (succeeds x) := by
  unfold succeeds
  split
  · exact .ok
  · exact .ok
  · exact .ok
  · rename_i e h1 h2
    intro e' he
    cases he
    have := h e rfl
    simp only [jvokahaErrs, kahaErrs, slinkuhiErrs, List.mem_append, List.mem_cons, List.not_mem_nil, or_false] at this ⊢
    rcases this with (h3 | h3 | h3 | h3) | h3
    · exact absurd h3 h1
    · exact absurd h3 h2
    · simp [h3]
    · simp [h3]
    · simp [h3]

theorem errs_isSlinkuhi {R : Rec} {y : YHyphens} {mz : Bool} {w : Str}
    (hs : ∀ t, Errs (slinkuhiErrs R.build) (R.slinkuhi y mz ('t' :: 'o' :: t))) :
    Errs (slinkuhiErrs R.build) (isSlinkuhi R y mz w) := by
  unfold isSlinkuhi
  refine .bind (errs_idx (by simp [slinkuhiErrs]) _ _) fun c hc => .ite (fun _ => .ok) fun _ =>
    errs_succeeds (errs_jvokaha ?_)
  intro v hv
  match v, hv with
  | a :: b :: t, hv =>
    simp at hv
    obtain ⟨rfl, rfl, -⟩ := hv
    exact hs t
  | [], hv => simp at hv
  | [a], hv => simp at hv

/-- What is known about the functions a call goes back into: `is_slinkuhi` behaves, and `analyse_brivla`
behaves on words that are already normal and have fewer than `k` letters. -/
structure Good (R : Rec) (k : Nat) : Prop where
  slinkuhi : ∀ y mz v, Errs (slinkuhiErrs R.build) (R.slinkuhi y mz v)
  analyse : ∀ s v, (∀ d ∈ v, readChar d = [d]) → v.length < k → Errs (analyseErrs R.build) (R.analyse s v)

theorem errs_isBrivlaR {R : Rec} {s : Settings} {v : Str} (h : Errs (analyseErrs R.build) (R.analyse s v)) :
    Errs ([.index, .decomposition] ++ nameErrs R.build) (isBrivlaR R s v) := by
  unfold isBrivlaR
  split
  · exact .ok
  · exact .ok
  · rename_i e h1 h2
    intro e' he
    cases he
    have := h e h2
    simp only [analyseErrs, List.mem_append, List.mem_cons, List.not_mem_nil, or_false] at this ⊢
    rcases this with (h3 | h3 | h3) | h3
    · exact absurd h3 h1
    · simp [h3]
    · simp [h3]
    · simp [h3]

theorem errs_fallsApartBefore {R : Rec} {y : YHyphens} {v : Str} {p : Nat}
    (h : ∀ j, 0 < j → ∀ s, Errs (analyseErrs R.build) (R.analyse s (v.drop j))) : ∀ k i, i + k ≤ p →
    (∀ j, i ≤ j → j < i + k → j < p) →
    Errs (zihevlaErrs R.build) (fallsApartBefore R y v p k i) := by
  intro k
  induction k with
  | zero => intro i _ _; exact .ok
  | succ k ih =>
    intro i hi hj
    unfold fallsApartBefore
    have h0 := hj i (by omega) (by omega)
    refine .bind (errs_idx (by simp [zihevlaErrs]) _ _) fun c _ => .ite (fun _ => .bind
      ((errs_isBrivlaR (h (p - i) (by omega) _)).mono ?_) fun _ _ => .ite (fun _ => .err (by simp [zihevlaErrs])) fun _ =>
        ih _ (by omega) (fun j h1 h2 => hj j (by omega) (by omega))) fun _ =>
        ih _ (by omega) (fun j h1 h2 => hj j (by omega) (by omega))
    intro e he
    simp only [zihevlaErrs, List.mem_append, List.mem_cons] at he ⊢
    rcases he with (h | h | h) | h <;> simp_all

theorem errs_checkZihevlaOrRafsi {R : Rec} {rz : Bool} {y : YHyphens} {ex mz : Bool} {v : Str} {k : Nat}
    (hR : Good R k) (h0 : 0 < k) (hst : ∀ d ∈ v, readChar d = [d]) (hk : v.length ≤ k) :
    Errs (zihevlaErrs R.build) (checkZihevlaOrRafsi R rz y ex mz v) := by
  have hz : .notZihevla ∈ zihevlaErrs R.build := by simp [zihevlaErrs]
  have hi : .index ∈ zihevlaErrs R.build := by simp [zihevlaErrs]
  have hd : ∀ j, 0 < j → ∀ s, Errs (analyseErrs R.build) (R.analyse s (v.drop j)) := by
    intro j hj s
    refine hR.analyse _ _ (fun d hd => hst d (List.mem_of_mem_drop hd)) ?_
    rw [List.length_drop]; omega
  have hsub : ∀ e ∈ [Err.index, .decomposition] ++ nameErrs R.build, e ∈ zihevlaErrs R.build := by
    intro e he
    simp only [zihevlaErrs, List.mem_append, List.mem_cons] at he ⊢
    rcases he with (h | h | h) | h <;> simp_all
  have hsub2 : ∀ e ∈ slinkuhiErrs R.build, e ∈ zihevlaErrs R.build := by
    intro e he
    simp only [zihevlaErrs, slinkuhiErrs, List.mem_append, List.mem_cons] at he ⊢
    rcases he with (h | h | h) | h <;> simp_all
  unfold checkZihevlaOrRafsi
  refine .ite (fun _ => .err hz) fun _ => .bind ((errs_zihScan (by omega)).mono (by simp [zihevlaErrs])) fun st _ =>
    .ite (fun _ => .err hz) fun _ => .bind ?_ fun _ _ => ?_
  · split
    · rename_i p hp
      refine .ite (fun h1 => .bind ((errs_isBrivlaR (hd p h1.2 _)).mono hsub) fun _ _ => .ite (fun _ => .err hz)
        fun _ => errs_fallsApartBefore hd _ _ (by omega) (by intro j h2 h3; omega)) fun _ => .ok
    · exact .ok
  · split
    · refine .ite (fun _ => .err hz) fun _ => .bind (errs_idx hi _ _) fun c _ => .ite (fun _ => .err hz) fun _ =>
        .ite (fun _ => .err hz) fun _ => .ite (fun _ => .err hz) fun _ => .ok
    · refine .bind (errs_idx hi _ _) fun c _ => .bind (.ite (fun _ => .bind (errs_idx hi _ _) fun _ _ => .ok) fun _ => .ok)
        fun sk _ => .ite (fun _ => .bind ((hR.slinkuhi _ _ _).mono hsub2) fun _ _ => .ite (fun _ => .err hz) fun _ => .ok)
        fun _ => .ok

theorem errs_stripLeadingH (b : Build) (i : Nat) (p : Str) : Errs (analyseErrs b) (stripLeadingH i p) := by
  have h1 : .notBrivla ∈ analyseErrs b := by simp [analyseErrs]
  have h2 : .index ∈ analyseErrs b := by simp [analyseErrs]
  unfold stripLeadingH
  split
  · exact .err h1
  · refine .ite (fun _ => ?_) fun _ => .ite (fun _ => .err h1) fun _ => .ok
    split
    · exact .err h1
    · refine .ite (fun _ => .err h1) fun _ => .bind ((errs_splitVowelCluster _).mono (by simp [analyseErrs])) fun sy _ => ?_
      split
      · exact .err h2
      · exact .ite (fun _ => .err h1) fun _ => .ok

theorem errs_partForm (b : Build) (ctx : ACtx) (i : Nat) (hc : Bool) (p : Str) :
    Errs (analyseErrs b) (partForm ctx i hc p) := by
  have h1 : .notBrivla ∈ analyseErrs b := by simp [analyseErrs]
  have h2 : .index ∈ analyseErrs b := by simp [analyseErrs]
  unfold partForm
  exact .bind (errs_idxLast h2 _) fun l _ => .ite (fun _ => .bind (.ite (fun _ => .bind (errs_idx h2 _ _) fun _ _ => .ok)
    fun _ => .ok) fun _ _ => .bind (errs_idxLast h2 _) fun _ _ => .ite (fun _ => .err h1) fun _ => .ok) fun _ =>
    .ite (fun _ => .ok) fun _ => .ok

theorem errs_tryKaha {R : Rec} {ctx : ACtx} {f : PartForm}
    (h : ∀ s, Errs (analyseErrs R.build) (R.analyse s f.partA)) : Errs (analyseErrs R.build) (tryKaha R ctx f) := by
  have h1 : .notBrivla ∈ analyseErrs R.build := by simp [analyseErrs]
  unfold tryKaha
  refine .bind (.ite (fun _ => ?_) fun _ => .ok) fun _ _ => ?_
  · split
    · exact .ok
    · rename_i e _ he
      exact .err (h _ e he)
    · exact .ite (fun _ => .err h1) fun _ => .ok
  · split
    · exact .ok
    · exact .ok
    · exact .ok
    · rename_i e h3 h4 h5 he
      have := errs_jvokaha2 _ _ _ e he
      simp [kahaErrs] at this
      rcases this with h6 | h6 | h6 | h6
      · exact absurd h6 h3
      · exact absurd h6 h4
      · exact .err (by simp [analyseErrs, h6])
      · exact absurd h6 h5
    · split
      · exact .ok
      · exact .ite (fun _ => .err h1) fun _ => .ok
      · exact .ok

theorem slinkuhiErrs_sub (b : Build) : ∀ e ∈ slinkuhiErrs b, e ∈ analyseErrs b := by
  intro e he
  simp only [analyseErrs, slinkuhiErrs, List.mem_append, List.mem_cons] at he ⊢
  rcases he with (h | h | h) | h <;> simp_all

theorem errs_tosmabruTest {R : Rec} {ctx : ACtx} {f : PartForm}
    (h : ∀ y mz v, Errs (slinkuhiErrs R.build) (R.slinkuhi y mz v)) :
    Errs (analyseErrs R.build) (tosmabruTest R ctx f) := by
  have h1 : .notBrivla ∈ analyseErrs R.build := by simp [analyseErrs]
  have h2 : .index ∈ analyseErrs R.build := by simp [analyseErrs]
  unfold tosmabruTest
  refine .bind (.ite (fun _ => .ok) fun _ => .ite (fun _ => .ok) fun _ => .bind (errs_idx h2 _ _) fun _ _ =>
    .ite (fun _ => .bind (errs_idx h2 _ _) fun _ _ => .ite (fun _ => .ok) fun _ => .ok) fun _ => .ok) fun _ _ =>
    .ite (fun _ => .ok) fun _ => .bind (.ite (fun _ => .ite (fun _ => .bind (errs_idx h2 _ _) fun _ _ => .ok) fun _ => .ok)
      fun _ => .ok) fun _ _ => .ite (fun _ => .err h1) fun _ => .bind
        ((errs_succeeds (errs_jvokaha (fun v _ => h _ _ v))).mono (slinkuhiErrs_sub _)) fun _ _ =>
        .ite (fun _ => .err h1) fun _ => .ok

theorem errs_analysePart {R : Rec} {ctx : ACtx} {i : Nat} {p : Str} {st : AState} {k : Nat}
    (hR : Good R k) (hst : ∀ d ∈ p, readChar d = [d]) (hk : p.length + 1 < k) :
    Errs (analyseErrs R.build) (analysePart R ctx i p st) := by
  have h1 : .notBrivla ∈ analyseErrs R.build := by simp [analyseErrs]
  have h2 : .index ∈ analyseErrs R.build := by simp [analyseErrs]
  unfold analysePart
  refine .bind (errs_stripLeadingH _ _ _) fun ⟨part, lead⟩ hs => .ite (fun _ => .ok) fun _ =>
    .bind (errs_idx h2 _ _) fun c0 _ => .bind (errs_partForm _ _ _ _ _) fun f hf => ?_
  obtain ⟨-, hp0, -, -⟩ := stripLeadingH_ok hs
  have hlen : part.length ≤ p.length := by rw [hp0]; split <;> simp
  have hmem : ∀ d ∈ part, readChar d = [d] := by
    intro d hd; apply hst; rw [hp0]; split <;> simp [hd]
  obtain ⟨e1, e2, e3, -⟩ := partForm_ok hf
  have ha : readChar 'a' = ['a'] := by decide
  have hA : ∀ s, Errs (analyseErrs R.build) (R.analyse s f.partA) := by
    intro s
    apply hR.analyse
    · intro d hd
      rw [e3] at hd
      rcases List.mem_append.1 hd with hd | hd
      · exact hmem d hd
      · simp at hd; subst hd; exact ha
    · rw [e3]; simp; omega
  have hcopy : ∀ d ∈ f.partCopy, d ∈ part := by
    intro d hd; rw [e1]; simp [hd]
  have hcl : f.partCopy.length ≤ part.length := by
    have := congrArg List.length e1
    rw [List.length_append] at this
    omega
  have hP : ∀ d ∈ f.part, readChar d = [d] := by
    intro d hd
    rw [e2] at hd
    rcases List.mem_append.1 hd with hd | hd
    · exact hmem d (hcopy d hd)
    · split at hd
      · simp at hd; subst hd; exact ha
      · simp at hd
  have hPl : f.part.length ≤ k := by
    rw [e2, List.length_append]
    split <;> simp <;> omega
  refine .bind (.ite (fun _ => errs_tryKaha hA) fun _ => .ok) fun ⟨found, did⟩ _ => ?_
  dsimp only
  refine .ite (fun _ => .ite (fun _ => .err h1) fun _ => .bind (.ite (fun _ => errs_tosmabruTest hR.slinkuhi) fun _ => .ok)
    fun _ _ => .ok) fun _ => .bind ?_ fun sh _ => .bind (.ite (fun _ => .bind
      ((errs_succeeds ((errs_jvokaha2 _ _ _).mono (by intro e he; exact List.mem_append_left _ he))).mono
        (slinkuhiErrs_sub _)) fun _ _ => .ite (fun _ => .err h1) fun _ => .ok) fun _ => .ok) fun _ _ =>
      .bind (errs_idx h2 _ _) fun _ _ => .ok
  split
  · exact .err h1
  · rename_i x hx
    intro e he
    have := errs_checkZihevlaOrRafsi hR (by omega) hP hPl e he
    simp only [zihevlaErrs, analyseErrs, List.mem_append, List.mem_cons, List.not_mem_nil, or_false] at this ⊢
    rcases this with (h | h | h | h) | h
    · subst h; exact absurd he hx
    all_goals simp [h]

theorem errs_analyseLoop {R : Rec} {ctx : ACtx} {k : Nat} (hR : Good R k) : ∀ {ps : List Str} {i : Nat} {st : AState},
    (∀ p ∈ ps, (∀ d ∈ p, readChar d = [d]) ∧ p.length + 1 < k) →
    Errs (analyseErrs R.build) (analyseLoop R ctx i ps st) := by
  intro ps
  induction ps with
  | nil => intro i st _; exact .ok
  | cons p ps ih =>
    intro i st h
    unfold analyseLoop
    exact .bind (errs_analysePart hR (h p (by simp)).1 (h p (by simp)).2) fun _ _ => ih (fun q hq => h q (by simp [hq]))

/-- The parts of a word that does not begin or end with the separator are at least two letters shorter. -/
theorem splitOn_part_length {c : Char} {s : Str} {a l : Char} (h0 : s.head? = some a) (ha : a ≠ c)
    (hl : s.getLast? = some l) (hlc : l ≠ c) (hn : (splitOn c s).length ≠ 1) :
    ∀ p ∈ splitOn c s, p.length + 1 < s.length ∧ ∀ d ∈ p, d ∈ s := by
  have hj := joinSep_splitOn c s
  obtain ⟨init, q, hiq, hq⟩ := splitOn_getLast hl hlc
  have hq0 : 0 < q.length := by cases q with
    | nil => simp at hq
    | cons => simp
  cases hs : splitOn c s with
  | nil => exact absurd hs (splitOn_ne_nil _ _)
  | cons p ps =>
    rw [hs] at hj hn hiq
    have hp0 : 0 < p.length := by
      cases p with
      | nil =>
        cases ps with
        | nil => simp [joinSep] at hj; subst hj; simp at h0
        | cons r ps => simp [joinSep] at hj; subst hj; simp at h0; exact absurd h0.symm ha
      | cons => simp
    have hlen : s.length = p.length + (ps.map (fun r => r.length + 1)).sum := by
      rw [← hj, joinSep, List.length_append, List.length_flatMap]
      simp
    have hsum : ∀ (l : List Str), ∀ r ∈ l, r.length + 1 ≤ (l.map (fun r => r.length + 1)).sum := by
      intro l
      induction l with
      | nil => intro r hr; cases hr
      | cons x l ih =>
        intro r hr
        rw [List.map_cons, List.sum_cons]
        rcases List.mem_cons.1 hr with rfl | hr
        · omega
        · have := ih r hr; omega
    intro r hr
    refine ⟨?_, ?_⟩
    · rcases List.mem_cons.1 hr with rfl | hr
      · cases init with
        | nil => simp at hiq; rw [hiq.2] at hn; simp at hn
        | cons x init =>
          simp at hiq
          have := hsum ps q (by rw [hiq.2]; simp)
          omega
      · have := hsum ps r hr
        omega
    · intro d hd
      rw [← hj, joinSep]
      rcases List.mem_cons.1 hr with rfl | hr
      · simp [hd]
      · rw [List.mem_append, List.mem_flatMap]
        exact .inr ⟨r, hr, by simp [hd]⟩

theorem errs_analyseY {R : Rec} {s : Settings} {c : Bool} {w : Str} {a l : Char} (hR : Good R w.length)
    (hst : ∀ d ∈ w, readChar d = [d]) (h0 : w.head? = some a) (ha : a ≠ 'y') (hl : w.getLast? = some l) (hlc : l ≠ 'y')
    (hn : (splitOn 'y' w).length ≠ 1) : Errs (analyseErrs R.build) (analyseY R s c w (splitOn 'y' w)) := by
  have h1 : .notBrivla ∈ analyseErrs R.build := by simp [analyseErrs]
  have h2 : .index ∈ analyseErrs R.build := by simp [analyseErrs]
  have hp := splitOn_part_length h0 ha hl hlc hn
  unfold analyseY
  exact .bind (errs_analyseLoop hR (fun p hp' => ⟨fun d hd => hst d ((hp p hp').2 d hd), (hp p hp').1⟩)) fun st _ =>
    .ite (fun _ => .err h1) fun _ => .bind (errs_idx h2 _ _) fun c0 _ => .bind
      (.ite (fun _ => .bind (errs_idx h2 _ _) fun _ _ => .ok) fun _ => .ok) fun _ _ => .bind
      (.ite (fun _ => (errs_isSlinkuhi (fun t => hR.slinkuhi _ _ _)).mono (slinkuhiErrs_sub _)) fun _ => .ok) fun _ _ =>
      .ite (fun _ => .err h1) fun _ => .ok

theorem errs_analyseNorm {R : Rec} {s : Settings} {w : Str} (hR : Good R w.length)
    (hst : ∀ d ∈ w, readChar d = [d]) : Errs (analyseErrs R.build) (analyseNorm R s w) := by
  have h1 : .notBrivla ∈ analyseErrs R.build := by simp [analyseErrs]
  have h2 : .index ∈ analyseErrs R.build := by simp [analyseErrs]
  unfold analyseNorm
  split
  · rename_i c0 l hc0 hl
    refine .ite (fun _ => .err h1) fun hcv => .ite (fun _ => .err h1) fun _ => .ite (fun _ => .ok) fun _ => ?_
    have hl' : l ≠ 'y' := by rintro rfl; revert hcv; decide
    have hrest : Errs (analyseErrs R.build) (analyseRest R s (isConsonant l) c0 w) := by
      unfold analyseRest
      refine .ite (fun _ => .err h1) fun hc => .ite (fun _ => .ite (fun _ => .err h1) fun _ => ?_) fun hn => ?_
      · split
        · exact .ok
        · exact .err h1
        · rename_i e hne he
          have hpos : 0 < w.length := by cases w with
            | nil => simp at hc0
            | cons => simp
          have := errs_checkZihevlaOrRafsi hR hpos hst (Nat.le_refl _) e he
          refine .err ?_
          simp only [zihevlaErrs, analyseErrs, List.mem_append, List.mem_cons, List.not_mem_nil, or_false] at this ⊢
          rcases this with (h | h | h | h) | h
          · exact absurd h hne
          all_goals simp [h]
      · refine errs_analyseY hR hst hc0 ?_ hl hl' hn
        rintro rfl; revert hc; decide
    split
    · exact .ok
    · exact hrest
    · exact hrest
    · exact hrest
    · rename_i e h3 h4 h5 he
      have := errs_jvokaha (R := R) (fun v _ => hR.slinkuhi _ _ _) e he
      refine .err ?_
      simp only [jvokahaErrs, kahaErrs, analyseErrs, List.mem_append, List.mem_cons, List.not_mem_nil, or_false] at this ⊢
      rcases this with (h | h | h | h) | h
      · exact absurd h h3
      · exact absurd h h4
      · simp [h]
      · exact absurd h h5
      · simp [h]
  · exact .err h1

/-! ## The recursion budget suffices -/

theorem errs_slinkuhi_recN (b : Build) (n : Nat) (y : YHyphens) (mz : Bool) (v : Str) :
    Errs (slinkuhiErrs b) ((recN b (n + 2)).slinkuhi y mz v) := by
  rw [recN_slinkuhi]
  have := errs_isSlinkuhi (R := recN b (n + 1)) (y := y) (mz := mz) (w := v) (by
    intro t
    rw [recN_slinkuhi_to]
    exact .ok)
  rwa [recN_build] at this

theorem flatMap_readChar_stable {v : Str} (h : ∀ d ∈ v, readChar d = [d]) : v.flatMap readChar = v := by
  induction v with
  | nil => rfl
  | cons c n ih =>
    rw [List.flatMap_cons, h c (by simp), ih (fun d hd => h d (by simp [hd]))]
    rfl

theorem readChar_stable {c d : Char} (h : d ∈ readChar c) : readChar d = [d] := by
  unfold readChar at h
  split at h
  · simp at h
  · rename_i h1
    split at h
    · simp at h; subst h; decide
    · rename_i h2
      split at h
      · rename_i h3
        have := upper_cases h3
        have key : ∀ c ∈ s%"ABCDEFGHIJKLMNOPQRSTUVWXYZ", ¬ (c = 'h' ∨ c = 'H') →
            ∀ d ∈ [Char.ofNat (c.toNat + 32)], readChar d = [d] := by decide
        exact key c this h2 d h
      · rename_i h3
        split at h
        · simp at h; subst h; decide
        · rename_i h4
          split at h
          · simp at h; rcases h with rfl | rfl <;> decide
          · rename_i h5
            simp at h
            subst h
            unfold readChar
            rw [if_neg h1, if_neg h2, if_neg h3, if_neg h4, if_neg h5]

theorem reading_chars {w : Str} {d : Char} (h : d ∈ reading w) : readChar d = [d] := by
  unfold reading at h
  split at h <;> (obtain ⟨c, -, hc⟩ := List.mem_flatMap.1 h; exact readChar_stable hc)

theorem reading_length_stable {v : Str} (h : ∀ d ∈ v, readChar d = [d]) : (reading v).length ≤ v.length := by
  unfold reading
  split
  · rw [flatMap_readChar_stable (fun d hd => h d (by simp [hd]))]; simp
  · rw [flatMap_readChar_stable h]; exact Nat.le_refl _

theorem readChar_length (c : Char) : (readChar c).length ≤ 2 := by
  unfold readChar
  repeat' split
  all_goals simp

theorem reading_length (w : Str) : (reading w).length ≤ 2 * w.length := by
  have key : ∀ v : Str, (v.flatMap readChar).length ≤ 2 * v.length := by
    intro v
    induction v with
    | nil => simp
    | cons c v ih =>
      rw [List.flatMap_cons, List.length_append, List.length_cons]
      have := readChar_length c
      omega
  unfold reading
  split
  · rename_i cs; have := key cs; simp only [List.length_cons]; omega
  · exact key _

theorem good_recN (b : Build) : ∀ k, Good (recN b (k + 2)) k := by
  intro k
  induction k with
  | zero =>
    refine ⟨fun y mz v => ?_, fun s v _ hv => by omega⟩
    rw [recN_build]; exact errs_slinkuhi_recN b 0 y mz v
  | succ k ih =>
    refine ⟨fun y mz v => ?_, fun s v hst hv => ?_⟩
    · rw [recN_build]; exact errs_slinkuhi_recN b _ y mz v
    · rw [recN_build, recN_analyse]
      unfold analyseR
      refine .bind ?_ fun n hn => ?_
      · unfold normalise
        split
        · exact .err (by simp [analyseErrs])
        · exact .ok
      · obtain ⟨hne, rfl⟩ := normalise_ok hn
        have hlen := reading_length_stable hst
        have h : Good (recN b (k + 2)) (reading v).length :=
          ⟨ih.slinkuhi, fun s u h1 h2 => ih.analyse s u h1 (by omega)⟩
        have := errs_analyseNorm (s := s) h (fun d => reading_chars)
        rwa [recN_build] at this

theorem good_mono {R : Rec} {k k' : Nat} (h : Good R k) (hk : k' ≤ k) : Good R k' :=
  ⟨h.slinkuhi, fun s v h1 h2 => h.analyse s v h1 (by omega)⟩

/-- The exceptions of `analyse_brivla`, with any budget that is large enough. -/
theorem errs_analyseR_recN {b : Build} {n : Nat} {s : Settings} {w : Str} (hn : 2 * w.length + 2 ≤ n) :
    Errs (analyseErrs b) (analyseR (recN b n) s w) := by
  unfold analyseR
  refine .bind ?_ fun m hm => ?_
  · unfold normalise
    split
    · exact .err (by simp [analyseErrs])
    · exact .ok
  · obtain ⟨hne, rfl⟩ := normalise_ok hm
    have hlen := reading_length w
    have h := good_mono (good_recN b (n - 2)) (k' := (reading w).length) (by omega)
    rw [show n - 2 + 2 = n by omega] at h
    have := errs_analyseNorm (s := s) h (fun d => reading_chars)
    rwa [recN_build] at this

end Jvotci
