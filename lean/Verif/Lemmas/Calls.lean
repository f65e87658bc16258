import Verif.CountCalls
import Verif.Lemmas.Count
import Verif.Lemmas.Depth
import Verif.Props.Words

/-!
# Helper lemmas: counting the calls of `analyse_brivla` and `is_slinkuhi`
-/

namespace Jvotci

open Spec

/-! ## Rules -/

theorem costs_tick {α : Type} {x : Counted α} {y : Except Err α} {k : Nat} (h : Costs x y k) : Costs (tick x) y (k + 1) := by
  intro n
  obtain ⟨m, h1, h2⟩ := h (n + 1)
  exact ⟨m, h1, by omega⟩

theorem costs_outcome {α β : Type} {x : Counted α} {y : Except Err α} {h : Except Err α → Counted β} {z : Except Err β} {k k' K : Nat}
    (hx : Costs x y k) (hh : Costs (h y) z k') (hK : k + k' ≤ K) : Costs (outcome x h) z K := by
  intro n
  obtain ⟨m, h1, h2⟩ := hx n
  obtain ⟨m', g1, g2⟩ := hh m
  refine ⟨m', ?_, by omega⟩
  unfold outcome
  rw [h1]
  exact g1

theorem costs_after {α β : Type} {x : Counted α} {y : Except Err α} {g : Except Err α → Except Err β} {k : Nat}
    (hx : Costs x y k) : Costs (outcome x fun r => uncounted (g r)) (g y) k :=
  costs_outcome hx (costs_uncounted _) (by omega)

theorem costs_then {α β : Type} {x : Counted α} {y : Except Err α} {f : α → Counted β} {g : α → Except Err β} {k k' K : Nat}
    (h : Costs x y k) (hf : ∀ a, y = .ok a → Costs (f a) (g a) k') (hK : k + k' ≤ K) : Costs (x >>= f) (y >>= g) K :=
  costs_mono (costs_bind h hf) hK

theorem costs_free {α β : Type} {y : Except Err α} {f : α → Counted β} {g : α → Except Err β} {k : Nat}
    (hf : ∀ a, y = .ok a → Costs (f a) (g a) k) : Costs (uncounted y >>= f) (y >>= g) k :=
  costs_then (costs_uncounted y) hf (by omega)

theorem costs_ite {α : Type} {p : Prop} [Decidable p] {x x' : Counted α} {y y' : Except Err α} {k : Nat}
    (h : p → Costs x y k) (h' : ¬ p → Costs x' y' k) : Costs (if p then x else x') (if p then y else y') k := by
  split
  · exact h ‹_›
  · exact h' ‹_›

theorem costs_none {α : Type} (x : Except Err α) {k : Nat} : Costs (uncounted x) x k := costs_mono (costs_uncounted x) (by omega)

/-! ## Function by function -/

theorem costs_isBrivla {RC : RecC} {R : Rec} {s : Settings} {v : Str} {k : Nat} (h : Costs (RC.analyse s v) (R.analyse s v) k) :
    Costs (isBrivlaC RC s v) (isBrivlaR R s v) k := by
  unfold isBrivlaC isBrivlaR
  exact costs_outcome h (costs_uncounted _) (by omega)

theorem costs_rafsiListFor_cll {RC : RecC} {R : Rec} {s : Settings} {f l : Bool} {x : Str} (h : Rafsi s.allowMz x) :
    Costs (rafsiListForC RC s f l (s%"-" ++ x ++ s%"-")) (rafsiListFor R s f l (s%"-" ++ x ++ s%"-")) 0 := by
  have h1 : idxLast (s%"-" ++ x ++ s%"-") = .ok '-' := by
    unfold idxLast
    rw [List.getLast?_append]
    rfl
  unfold rafsiListForC rafsiListFor
  refine costs_free fun d hd => ?_
  rw [h1] at hd
  cases hd
  rw [if_pos rfl, if_pos rfl]
  refine costs_free fun e he => ?_
  cases he
  dsimp only
  rw [stripBoth_dash (rafsi_no_dash h)]
  refine costs_ite (fun _ => costs_none _) fun _ => costs_free fun d _ => costs_ite (fun _ => costs_none _) fun _ => ?_
  rw [if_neg (by simp), if_neg (by simp)]
  unfold rafsiListRafsiC rafsiListRafsi
  dsimp only
  rw [if_neg (rafsi_tarmi h).1, if_neg (rafsi_tarmi h).1]
  exact costs_none _

theorem costs_rafsiListList {RC : RecC} {R : Rec} {s : Settings} {n : Nat} (K : Str → Nat) : ∀ {vs : List Str} {i : Nat},
    (∀ v ∈ vs, ∀ f l, Costs (rafsiListForC RC s f l v) (rafsiListFor R s f l v) (K v)) →
    Costs (rafsiListListFromC RC s n i vs) (rafsiListListFrom R s n i vs) (vs.map K).sum := by
  intro vs
  induction vs with
  | nil => intro i _; exact costs_none _
  | cons v vs ih =>
    intro i h
    unfold rafsiListListFromC rafsiListListFrom
    rw [List.map_cons, List.sum_cons]
    exact costs_bind (h v (by simp) _ _) fun a _ => costs_then (ih fun u hu => h u (by simp [hu])) (fun b _ => costs_none (k := 0) _) (by omega)

theorem costs_slinkuhiInJvozba {RC : RecC} {R : Rec} {y : YHyphens} {mz : Bool} {v : Str} {k : Nat} (hb : RC.build = R.build)
    (h : Costs (RC.slinkuhi y mz v) (R.slinkuhi y mz v) k) : Costs (slinkuhiInJvozbaC RC y mz v) (slinkuhiInJvozba R y mz v) k := by
  unfold slinkuhiInJvozbaC slinkuhiInJvozba
  rw [hb]
  cases R.build
  · exact costs_none _
  · exact h

theorem costs_getLujvo {RC : RecC} {R : Rec} {s : Settings} {g : Bool} {vs : List Str} {j k : Nat} (hb : RC.build = R.build)
    (hl : Costs (rafsiListListFromC RC s vs.length 0 vs) (rafsiListListFrom R s vs.length 0 vs) j)
    (hs : ∀ ll best r, rafsiListListFrom R s vs.length 0 vs = .ok ll → searchStages (combineOpts s g) ll = .ok best → pickBest g best = some r →
      Costs (RC.slinkuhi s.yHyphens s.allowMz r.1) (R.slinkuhi s.yHyphens s.allowMz r.1) k) :
    Costs (getLujvoFromListC RC s g vs) (getLujvoFromList R s g vs) (j + k) := by
  unfold getLujvoFromListC getLujvoFromList getRafsiListList
  refine costs_bind hl fun ll hll => costs_free fun best hbest => ?_
  split
  · rename_i hr
    simp only [hr]
    exact costs_none _
  · rename_i r hr
    simp only [hr]
    exact costs_ite (fun _ => costs_then (costs_slinkuhiInJvozba hb (hs ll best r hll hbest hr)) (fun t _ =>
      costs_ite (fun _ => costs_none (k := 0) _) fun _ => costs_none _) (by omega)) fun _ => costs_none _

theorem costs_getLujvo_cll {RC : RecC} {R : Rec} {s : Settings} {g : Bool} {xs : List Str} {k : Nat} (hb : RC.build = R.build)
    (hx : ∀ x ∈ xs, Rafsi s.allowMz x)
    (hs : ∀ x rest t, xs = x :: rest → Costs (RC.slinkuhi s.yHyphens s.allowMz (x ++ t)) (R.slinkuhi s.yHyphens s.allowMz (x ++ t)) k) :
    Costs (getLujvoFromListC RC s g (xs.map (fun x => s%"-" ++ x ++ s%"-"))) (getLujvoFromList R s g (xs.map (fun x => s%"-" ++ x ++ s%"-"))) k := by
  have h := costs_rafsiListList (RC := RC) (R := R) (s := s) (n := (xs.map (fun x => s%"-" ++ x ++ s%"-")).length) (fun _ => 0)
    (vs := xs.map (fun x => s%"-" ++ x ++ s%"-")) (i := 0) (by
      intro v hv f l
      obtain ⟨x, hx', rfl⟩ := List.mem_map.1 hv
      exact costs_rafsiListFor_cll (hx x hx'))
  refine costs_mono (costs_getLujvo (k := k) hb h fun ll best r hll hbest hr => ?_) (by
    have : ∀ l : List Str, (l.map fun _ => 0).sum = 0 := by intro l; induction l <;> simp_all
    rw [this]; omega)
  rw [rafsiListListFrom_cll hx] at hll
  cases hll
  obtain ⟨x, rest, t, hxs, hrt⟩ := getLujvoFromList_first hx hbest hr
  rw [hrt]
  exact hs x rest t hxs

theorem costs_jvokaha {RC : RecC} {R : Rec} {y : YHyphens} {co : Consonants} {g mz : Bool} {w : Str} {k : Nat} (hb : RC.build = R.build)
    (hs : ∀ v, v.take 3 = w.take 3 → Costs (RC.slinkuhi y mz v) (R.slinkuhi y mz v) k) :
    Costs (jvokahaC RC y co g mz w) (jvokaha R y co g mz w) k := by
  unfold jvokahaC jvokaha
  refine costs_free fun arr harr => ?_
  dsimp only
  refine costs_ite (fun _ => costs_none _) fun _ => ?_
  obtain ⟨hj, hch⟩ := jvokaha2_ok harr
  cases hlast : arr.getLast? with
  | none => exact costs_none _
  | some lastPiece =>
    refine costs_free fun l _ => costs_then ?_ (fun r _ => costs_free fun good _ => costs_ite (fun _ => costs_none (k := 0) _) fun _ => costs_none _)
      (Nat.le_refl k)
    have h := costs_getLujvo_cll (RC := RC) (R := R) (k := k)
        (s := { yHyphens := y, consonants := co, glides := g, allowMz := mz }) (g := isConsonant l)
        (xs := arr.filter (fun x => x.length > 2)) hb hch.filter (by
          intro x rest t he
          apply hs
          cases arr with
          | nil => simp at he
          | cons p ps =>
            have hlen := hch.head.1.length_pos
            rw [List.filter_cons_of_pos (by simp; omega)] at he
            cases he
            rw [← hj, join, List.flatten_cons, List.take_append_of_le_length hlen,
              List.take_append_of_le_length hlen])
    exact costs_outcome h (costs_uncounted _) (by omega)

theorem costs_succeeds {α : Type} {x : Counted α} {y : Except Err α} {k : Nat} (h : Costs x y k) : Costs (succeedsC x) (succeeds y) k :=
  costs_after h

theorem costs_isSlinkuhi {RC : RecC} {R : Rec} {y : YHyphens} {mz : Bool} {w : Str} {k : Nat} (hb : RC.build = R.build)
    (hs : ∀ t, Costs (RC.slinkuhi y mz ('t' :: 'o' :: t)) (R.slinkuhi y mz ('t' :: 'o' :: t)) k) :
    Costs (isSlinkuhiC RC y mz w) (isSlinkuhi R y mz w) k := by
  unfold isSlinkuhiC isSlinkuhi
  refine costs_free fun c _ => costs_ite (fun _ => costs_none _) fun _ => costs_succeeds (costs_jvokaha hb fun v hv => ?_)
  match v, hv with
  | a :: b :: t, hv =>
    simp at hv
    obtain ⟨rfl, rfl, -⟩ := hv
    exact hs t
  | [], hv => simp at hv
  | [a], hv => simp at hv

theorem costs_isSlinkuhi_to {RC : RecC} {R : Rec} {y : YHyphens} {mz : Bool} {t : Str} :
    Costs (isSlinkuhiC RC y mz ('t' :: 'o' :: t)) (isSlinkuhi R y mz ('t' :: 'o' :: t)) 0 := by
  unfold isSlinkuhiC isSlinkuhi
  refine costs_free fun c _ => costs_ite (fun _ => costs_none _) fun _ => costs_succeeds ?_
  unfold jvokahaC jvokaha
  refine costs_free fun arr harr => ?_
  rw [show s%"to" ++ 't' :: 'o' :: t = 't' :: 'o' :: 't' :: 'o' :: t from rfl, jvokaha2_toto] at harr
  cases harr

theorem recNC_build (b : Build) (n : Nat) : (recNC b n).build = b := by cases n <;> rw [recNC]

theorem rec_build (b : Build) (n : Nat) : (recNC b n).build = (recN b n).build := by rw [recNC_build, recN_build]

theorem costs_slinkuhi_to (b : Build) (n : Nat) (y : YHyphens) (mz : Bool) (t : Str) :
    Costs ((recNC b n).slinkuhi y mz ('t' :: 'o' :: t)) ((recN b n).slinkuhi y mz ('t' :: 'o' :: t)) 1 := by
  cases n with
  | zero => rw [recNC, recN]; exact costs_tick (costs_none _)
  | succ n => rw [recNC, recN]; exact costs_tick costs_isSlinkuhi_to

/-- `is_slinkuhi` calls itself at most once. -/
theorem costs_slinkuhi (b : Build) (n : Nat) (y : YHyphens) (mz : Bool) (v : Str) :
    Costs ((recNC b n).slinkuhi y mz v) ((recN b n).slinkuhi y mz v) 2 := by
  cases n with
  | zero => rw [recNC, recN]; exact costs_tick (costs_none _)
  | succ n => rw [recNC, recN]; exact costs_tick (costs_isSlinkuhi (rec_build b n) (costs_slinkuhi_to b n y mz))

theorem costs_check {RC : RecC} {R : Rec} {rz : Bool} {y : YHyphens} {ex mz : Bool} {v : Str} {k : Nat}
    (hsl : Costs (RC.slinkuhi y mz v) (R.slinkuhi y mz v) 2)
    (hx : ∀ st p, zihScan mz v (v.length + 1) v {} = .ok st → st.clusterPos = some p → 2 < st.numSyllables → 0 < p →
      Costs (fallsApartC RC y v p) (fallsApart R y v p) k) :
    Costs (checkZihevlaOrRafsiC RC rz y ex mz v) (checkZihevlaOrRafsi R rz y ex mz v) (k + 2) := by
  unfold checkZihevlaOrRafsiC checkZihevlaOrRafsi
  refine costs_ite (fun _ => costs_none _) fun _ => costs_free fun st hst => costs_ite (fun _ => costs_none _) fun _ =>
    costs_bind (k := k) (k' := 2) ?_ fun _ _ => ?_
  · cases hp : st.clusterPos with
    | none => exact costs_none _
    | some p => exact costs_ite (fun h1 => hx st p hst hp h1.1 h1.2) fun _ => costs_none _
  · cases hp : st.clusterPos with
    | none => exact costs_ite (fun _ => costs_none _) fun _ => costs_none _
    | some p =>
      exact costs_free fun c _ => costs_free fun sk _ => costs_ite (fun _ => costs_then hsl (fun _ _ =>
        costs_ite (fun _ => costs_none (k := 0) _) fun _ => costs_none _) (by omega)) fun _ => costs_none _

theorem costs_norm {RC : RecC} {R : Rec} {s : Settings} {w : Str} {k : Nat} (hb : RC.build = R.build)
    (hsl : ∀ y mz v, Costs (RC.slinkuhi y mz v) (R.slinkuhi y mz v) 2)
    (hrest : ∀ c0 l, w.head? = some c0 → w.getLast? = some l → (!isConsonant l && !isVowel l) = false →
      Costs (analyseRestC RC s (isConsonant l) c0 w) (analyseRest R s (isConsonant l) c0 w) k) :
    Costs (analyseNormC RC s w) (analyseNorm R s w) (k + 2) := by
  unfold analyseNormC analyseNorm
  cases hc0 : w.head? with
  | none => exact costs_none _
  | some c0 =>
    cases hl : w.getLast? with
    | none => exact costs_none _
    | some l =>
      refine costs_ite (fun _ => costs_none _) fun hcv => costs_ite (fun _ => costs_none _) fun _ => costs_ite (fun _ => costs_none _) fun _ => ?_
      have hrest := hrest c0 l hc0 hl (by simpa using hcv)
      refine costs_outcome (costs_jvokaha (k := 2) hb fun v _ => hsl _ _ _) (k' := k) ?_ (by omega)
      cases hj : jvokaha R s.yHyphens s.consonants s.glides s.allowMz w with
      | ok parts => exact costs_none _
      | error e => cases e <;> first | exact hrest | exact costs_none _

/-- A word without y. -/
theorem costs_analyse_no_y {RC : RecC} {R : Rec} {s : Settings} {v : Str} {k : Nat} (hb : RC.build = R.build)
    (hsl : ∀ y mz v, Costs (RC.slinkuhi y mz v) (R.slinkuhi y mz v) 2) (hy : 'y' ∉ reading v)
    (hc : (∃ c, (reading v).getLast? = some c ∧ Vowel c) →
      Costs (checkZihevlaOrRafsiC RC true s.yHyphens s.expRafsi s.allowMz (reading v))
        (checkZihevlaOrRafsi R true s.yHyphens s.expRafsi s.allowMz (reading v)) k) :
    Costs (analyseRC RC s v) (analyseR R s v) (k + 2) := by
  unfold analyseRC analyseR
  refine costs_free fun m hm => ?_
  obtain ⟨hne, rfl⟩ := normalise_ok hm
  refine costs_norm hb hsl fun c0 l _ hl hcv => ?_
  unfold analyseRestC analyseRest
  refine costs_ite (fun _ => costs_none _) fun _ => costs_ite (fun _ => costs_ite (fun _ => costs_none _) fun hcm => ?_) fun hn => ?_
  · have hvl : Vowel l := by
      rw [← isVowel_iff]
      simp only [Bool.not_eq_true] at hcm
      rw [hcm] at hcv
      simpa using hcv
    exact costs_outcome (hc ⟨l, hl, hvl⟩) (costs_uncounted _) (by omega)
  · exact absurd (by rw [splitOn_of_not_mem hy]; rfl) hn

/-! ## The words looked at inside a word -/

/-- At most `k` calls for `v`, however deep the recursion. -/
def Cheap (b : Build) (y : YHyphens) (v : Str) (k : Nat) : Prop :=
  ∀ n, Costs ((recNC b n).analyse { yHyphens := y } v) ((recN b n).analyse { yHyphens := y } v) k

theorem cheap_step {b : Build} {y : YHyphens} {v : Str} {k : Nat} (hl : ∀ c ∈ v, Vowel c ∨ Consonant c ∨ c = '\'')
    (h : ∀ n st p, zihScan false v (v.length + 1) v {} = .ok st → st.clusterPos = some p → 2 < st.numSyllables → 0 < p →
      (∃ c, v.getLast? = some c ∧ Vowel c) → Costs (fallsApartC (recNC b n) y v p) (fallsApart (recN b n) y v p) k) : Cheap b y v (k + 5) := by
  intro n
  cases n with
  | zero => rw [recNC, recN]; exact costs_mono (costs_tick (costs_none (k := 0) _)) (by omega)
  | succ n =>
    rw [recNC, recN]
    refine costs_mono (costs_tick (costs_analyse_no_y (k := k + 2) (rec_build b n) (costs_slinkuhi b n) (lojban_no_y hl) ?_)) (by omega)
    rw [reading_letters hl]
    intro hc
    exact costs_check (costs_slinkuhi b n _ _ _) fun st p h1 h2 h3 h4 => h n st p h1 h2 h3 h4 hc

theorem cheap_quick {b : Build} {y : YHyphens} {v : Str} (hl : ∀ c ∈ v, Vowel c ∨ Consonant c ∨ c = '\'') (h : ¬ Slow v) : Cheap b y v 5 :=
  cheap_step (k := 0) hl fun _ st p h1 h2 h3 h4 h5 => absurd ⟨st, p, h1, h2, h3, h4, h5⟩ h

/-- The consonants among the first `j` letters. -/
def consonantsUpTo (v : Str) (j : Nat) : Nat := ((v.take j).filter (fun c => Consonant c)).length

theorem consonantsUpTo_succ {v : Str} {j : Nat} {c : Char} (h : v[j]? = some c) :
    consonantsUpTo v (j + 1) = consonantsUpTo v j + if Consonant c then 1 else 0 := by
  unfold consonantsUpTo
  rw [List.take_add_one, h]
  simp only [Option.toList, List.filter_append, List.length_append]
  split <;> simp [*]

theorem consonantsUpTo_mono {v : Str} {i j : Nat} (h : i ≤ j) : consonantsUpTo v i ≤ consonantsUpTo v j := by
  unfold consonantsUpTo
  exact List.Sublist.length_le (List.Sublist.filter _ (List.take_sublist_take_left h))

/-- The search: `A` for each suffix that is no brivla, `X` more for each that begins with a consonant, and `F` more
for the last, if it is a brivla. -/
theorem costs_fallsBefore {b : Build} {n : Nat} {y : YHyphens} {v : Str} {p A X F : Nat}
    (hC : ∀ q, 0 < q → q < p → ConsonantInitial (v.drop q) → (∀ q', q < q' → q' < p → StartAt v q' → NB b y (v.drop q')) → Cheap b y (v.drop q) (A + X))
    (hN : ∀ q, 0 < q → q < p → Onglide (v.drop q) → (∀ q', q < q' → q' < p → StartAt v q' → NB b y (v.drop q')) → NB b y (v.drop q) →
      Cheap b y (v.drop q) A)
    (hG : ∀ q, 0 < q → q < p → Onglide (v.drop q) → (∀ q', q < q' → q' < p → StartAt v q' → NB b y (v.drop q')) → Cheap b y (v.drop q) (A + F)) :
    ∀ k i, 0 < i → i + k ≤ p → (∀ q', p - i < q' → q' < p → StartAt v q' → NB b y (v.drop q')) →
    Costs (fallsApartBeforeC (recNC b n) y v p k i) (fallsApartBefore (recN b n) y v p k i) (A * k + X * consonantsUpTo v (p - i + 1) + F) := by
  intro k
  induction k with
  | zero => intro i _ _ _; exact costs_none _
  | succ k ih =>
    intro i hi0 hi hj
    unfold fallsApartBeforeC fallsApartBefore
    refine costs_free fun c hc => ?_
    have hc := idx_ok hc
    have hd : v.drop (p - i) = c :: v.drop (p - i + 1) := by
      obtain ⟨hlt, e⟩ := List.getElem?_eq_some_iff.1 hc
      rw [List.drop_eq_getElem_cons hlt, e]
    have hst : (isConsonant c || isGlide (v.drop (p - i))) = true ↔ StartAt v (p - i) := by
      unfold StartAt
      rw [Bool.or_eq_true, isGlide_iff, isConsonant_iff, hd]
      rfl
    have hcount := consonantsUpTo_succ hc
    have hmono : consonantsUpTo v (p - (i + 1) + 1) ≤ consonantsUpTo v (p - i) := consonantsUpTo_mono (by omega)
    have hX : X * consonantsUpTo v (p - (i + 1) + 1) ≤ X * consonantsUpTo v (p - i) := Nat.mul_le_mul_left _ hmono
    have hX' : X * consonantsUpTo v (p - i + 1) = X * consonantsUpTo v (p - i) + X * if Consonant c then 1 else 0 := by rw [hcount, Nat.mul_add]
    have hA : A * (k + 1) = A * k + A := Nat.mul_succ ..
    have hrest : (StartAt v (p - i) → NB b y (v.drop (p - i))) →
        Costs (fallsApartBeforeC (recNC b n) y v p k (i + 1)) (fallsApartBefore (recN b n) y v p k (i + 1)) (A * k + X * consonantsUpTo v (p - i) + F) := by
      intro hnb
      refine costs_mono (ih (i + 1) (by omega) (by omega) fun q' h1 h2 h3 => ?_) (by omega)
      by_cases he : q' = p - i
      · rw [he] at h3 ⊢; exact hnb h3
      · exact hj q' (by omega) h2 h3
    refine costs_ite (fun hs => ?_) fun hs => ?_
    · have hS := hst.1 hs
      by_cases hcc : Consonant c
      · rw [if_pos hcc, Nat.mul_one] at hX'
        have hci : ConsonantInitial (v.drop (p - i)) := by rw [hd]; exact hcc
        refine costs_then (costs_isBrivla (hC (p - i) (by omega) (by omega) hci hj n)) (fun r hr => costs_ite (fun _ => costs_none _) fun hrf =>
          hrest fun _ => nb_of (n := n) (by rw [hr]; simpa using hrf)) (by omega)
      · have hon : Onglide (v.drop (p - i)) := by
          rcases hS with h | h
          · rw [hd] at h; exact absurd h hcc
          · exact h
        by_cases hnb : NB b y (v.drop (p - i))
        · refine costs_then (costs_isBrivla (hN (p - i) (by omega) (by omega) hon hj hnb n)) (fun r hr => costs_ite (fun _ => costs_none _) fun hrf =>
            hrest fun _ => hnb) (by omega)
        · refine costs_then (costs_isBrivla (hG (p - i) (by omega) (by omega) hon hj n)) (fun r hr => costs_ite (fun _ => costs_none (k := 0) _) fun hrf =>
            absurd (nb_of (n := n) (by rw [hr]; simpa using hrf)) hnb) (by omega)
    · refine costs_mono (hrest fun h => absurd (hst.2 h) hs) (by omega)

theorem costs_fallsApart {b : Build} {n : Nat} {y : YHyphens} {v : Str} {p A X F : Nat} (h0 : Cheap b y (v.drop p) A)
    (hC : NB b y (v.drop p) → ∀ q, 0 < q → q < p → ConsonantInitial (v.drop q) → (∀ q', q < q' → q' < p → StartAt v q' → NB b y (v.drop q')) →
      Cheap b y (v.drop q) (A + X))
    (hN : NB b y (v.drop p) → ∀ q, 0 < q → q < p → Onglide (v.drop q) → (∀ q', q < q' → q' < p → StartAt v q' → NB b y (v.drop q')) →
      NB b y (v.drop q) → Cheap b y (v.drop q) A)
    (hG : NB b y (v.drop p) → ∀ q, 0 < q → q < p → Onglide (v.drop q) → (∀ q', q < q' → q' < p → StartAt v q' → NB b y (v.drop q')) →
      Cheap b y (v.drop q) (A + F)) (hp : 0 < p) :
    Costs (fallsApartC (recNC b n) y v p) (fallsApart (recN b n) y v p) (A * p + X * consonantsUpTo v p + F) := by
  unfold fallsApartC fallsApart
  have hA : A * p = A * (p - 1) + A := by
    obtain ⟨m, rfl⟩ : ∃ m, p = m + 1 := ⟨p - 1, by omega⟩
    exact Nat.mul_succ ..
  refine costs_then (costs_isBrivla (h0 n)) (fun r hr => costs_ite (fun _ => costs_none _) fun hrf => ?_)
    (k' := A * (p - 1) + X * consonantsUpTo v p + F) (by omega)
  have hnb : NB b y (v.drop p) := nb_of (n := n) (by rw [hr]; simpa using hrf)
  have := costs_fallsBefore (n := n) (hC hnb) (hN hnb) (hG hnb) (p - 1) 1 (by omega) (by omega) (fun q' h1 h2 => by omega)
  rwa [show p - 1 + 1 = p by omega] at this

section inside

variable {b : Build} {y : YHyphens} {v : Str} {p : Nat} (hl : ∀ c ∈ v, Vowel c ∨ Consonant c ∨ c = '\'') (hf : FirstAt v p)

include hl hf in
theorem cheap_cluster : Cheap b y (v.drop p) 5 := by
  apply cheap_quick (drop_letters hl p)
  rintro ⟨st, p', h1, h2, h3, h4, -⟩
  have := firstAt_unique (firstAt_scan h1 h2).1 (firstAt_drop hf (Nat.le_refl p))
  omega

include hl hf in
theorem cheap_glide {q : Nat} (hq : q < p) (hon : Onglide (v.drop q)) (h0 : NB b y (v.drop p))
    (h : ∀ q', q < q' → q' < p → StartAt v q' → NB b y (v.drop q')) (hnb : NB b y (v.drop q)) : Cheap b y (v.drop q) 5 := by
  apply cheap_quick (drop_letters hl q)
  rintro ⟨st, p', h1, h2, h3, h4, h5⟩
  have e := firstAt_unique (firstAt_scan h1 h2).1 (firstAt_drop hf (Nat.le_of_lt hq))
  refine glide_brivla h1 h2 h3 h4 h5 hon ?_ (fun r hr1 hr2 hr3 => ?_) hnb
  · rw [List.drop_drop, e, show q + (p - q) = p by omega]; exact h0
  · rw [List.drop_drop]
    exact h (q + r) (by omega) (by omega) (start_drop.1 hr3)

include hl hf in
/-- A suffix after which there is no brivla. -/
theorem cheap_inside {q X : Nat} (hq : q < p) (hfew : consonantsUpTo (v.drop q) (p - q) ≤ 1) (h0 : NB b y (v.drop p))
    (hC : ∀ q', q < q' → q' < p → ConsonantInitial (v.drop q') → Cheap b y (v.drop q') (5 + X))
    (h : ∀ q', q < q' → q' < p → StartAt v q' → NB b y (v.drop q')) : Cheap b y (v.drop q) (5 * p + X + 5) := by
  apply cheap_step (drop_letters hl q)
  intro n st p' h1 h2 h3 h4 h5
  have e := firstAt_unique (firstAt_scan h1 h2).1 (firstAt_drop hf (Nat.le_of_lt hq))
  have hpp : q + p' = p := by omega
  have hg : ∀ r, 0 < r → r < p' → Onglide ((v.drop q).drop r) → Cheap b y ((v.drop q).drop r) 5 := by
    intro r hr1 hr2 hr3
    rw [List.drop_drop] at hr3 ⊢
    exact cheap_glide hl hf (by omega) hr3 h0 (fun q' g1 g2 g3 => h q' (by omega) g2 g3) (h (q + r) (by omega) (by omega) (.inr hr3))
  have := costs_fallsApart (b := b) (n := n) (y := y) (v := v.drop q) (p := p') (A := 5) (X := X) (F := 0)
    (by rw [List.drop_drop, hpp]; exact cheap_cluster hl hf)
    (fun _ r hr1 hr2 hr3 _ => by
      rw [List.drop_drop] at hr3 ⊢
      exact hC (q + r) (by omega) (by omega) hr3)
    (fun _ r hr1 hr2 hr3 _ _ => hg r hr1 hr2 hr3) (fun _ r hr1 hr2 hr3 _ => hg r hr1 hr2 hr3) h4
  refine costs_mono this ?_
  rw [e]
  have : X * consonantsUpTo (v.drop q) (p - q) ≤ X * 1 := Nat.mul_le_mul_left _ hfew
  omega

theorem consonantsUpTo_drop {v : Str} {q p : Nat} : consonantsUpTo (v.drop q) (p - q) ≤ consonantsUpTo v p := by
  unfold consonantsUpTo
  rw [← List.drop_take]
  exact List.Sublist.length_le (List.Sublist.filter _ (List.drop_sublist _ _))

include hl hf in
theorem cheap_consonant {q : Nat} (hq : q < p) (hc : ConsonantInitial (v.drop q)) (hfew : consonantsUpTo v p ≤ 1)
    (h0 : NB b y (v.drop p)) (h : ∀ q', q < q' → q' < p → StartAt v q' → NB b y (v.drop q')) : Cheap b y (v.drop q) (5 * p + 5) := by
  refine cheap_inside (X := 0) hl hf hq (Nat.le_trans consonantsUpTo_drop hfew) h0 (fun q' hq1 hq2 hs => ?_) h
  exfalso
  have key : ∀ {r : Nat}, ConsonantInitial (v.drop r) → ∃ c, v[r]? = some c ∧ Consonant c := by
    intro r hr
    cases hd : v.drop r with
    | nil => rw [hd] at hr; exact hr.elim
    | cons c t =>
      rw [hd] at hr
      refine ⟨c, ?_, hr⟩
      have := congrArg List.head? hd
      rw [List.head?_drop] at this
      exact this
  obtain ⟨c, hc1, hc2⟩ := key hc
  obtain ⟨d, hd1, hd2⟩ := key hs
  have e1 := consonantsUpTo_succ hc1
  have e2 := consonantsUpTo_succ hd1
  rw [if_pos hc2] at e1
  rw [if_pos hd2] at e2
  have e3 : consonantsUpTo v (q + 1) ≤ consonantsUpTo v q' := consonantsUpTo_mono (by omega)
  have e4 : consonantsUpTo v (q' + 1) ≤ consonantsUpTo v p := consonantsUpTo_mono (by omega)
  omega

include hl hf in
theorem cheap_start {q : Nat} (hq : q < p) (hfew : consonantsUpTo v p ≤ 1)
    (h0 : NB b y (v.drop p)) (h : ∀ q', q < q' → q' < p → StartAt v q' → NB b y (v.drop q')) : Cheap b y (v.drop q) (10 * p + 5) := by
  have := cheap_inside (b := b) (y := y) (X := 5 * p) hl hf hq (Nat.le_trans consonantsUpTo_drop hfew) h0 (fun q' hq1 hq2 hs => by
    rw [Nat.add_comm]
    exact cheap_consonant hl hf hq2 hs hfew h0 fun r hr1 hr2 hr3 => h r (by omega) hr2 hr3) h
  rwa [show 5 * p + 5 * p + 5 = 10 * p + 5 by omega] at this

end inside

/-- The search for a brivla inside a word. -/
theorem costs_search_inside {b : Build} {n : Nat} {y : YHyphens} {mz : Bool} {v : Str} {st : ZState} {p : Nat}
    (h1 : zihScan mz v (v.length + 1) v {} = .ok st) (h2 : st.clusterPos = some p) (h4 : 0 < p) :
    Costs (fallsApartC (recNC b n) y v p) (fallsApart (recN b n) y v p) (20 * p) := by
  obtain ⟨hf, hfew⟩ := firstAt_scan h1 h2
  have hl := (zihScan_sounds h1).letters
  have := costs_fallsApart (b := b) (n := n) (y := y) (A := 5) (X := 5 * p) (F := 10 * p) (cheap_cluster hl hf)
    (fun hnb q _ hq hc hj => by rw [Nat.add_comm]; exact cheap_consonant hl hf hq hc hfew hnb hj)
    (fun hnb q _ hq ho hj hq' => cheap_glide hl hf hq ho hnb hj hq')
    (fun hnb q _ hq ho hj => by rw [Nat.add_comm]; exact cheap_start hl hf hq hfew hnb hj) h4
  refine costs_mono this ?_
  have : 5 * p * consonantsUpTo v p ≤ 5 * p * 1 := Nat.mul_le_mul_left _ hfew
  omega

theorem costs_check_level (b : Build) (n : Nat) (rz : Bool) (y : YHyphens) (ex mz : Bool) (v : Str) :
    Costs (checkZihevlaOrRafsiC (recNC b n) rz y ex mz v) (checkZihevlaOrRafsi (recN b n) rz y ex mz v) (20 * v.length + 2) := by
  refine costs_check (costs_slinkuhi b n _ _ _) fun st p h1 h2 h3 h4 => costs_mono (costs_search_inside h1 h2 h4) ?_
  obtain ⟨⟨⟨a, c, e1, -⟩, -⟩, -⟩ := firstAt_scan h1 h2
  have := (List.getElem?_eq_some_iff.1 e1).1
  omega

/-- Words without y. -/
theorem costs_no_y (b : Build) (n : Nat) (s : Settings) {v : Str} (hy : 'y' ∉ reading v) :
    Costs ((recNC b n).analyse s v) ((recN b n).analyse s v) (20 * (reading v).length + 5) := by
  cases n with
  | zero => rw [recNC, recN]; exact costs_mono (costs_tick (costs_none (k := 0) _)) (by omega)
  | succ n =>
    rw [recNC, recN]
    exact costs_mono (costs_tick (costs_analyse_no_y (rec_build b n) (costs_slinkuhi b n) hy fun _ => costs_check_level b n _ _ _ _ _)) (by omega)

/-! ## Words with y -/

theorem costs_tryKaha {RC : RecC} {R : Rec} {ctx : ACtx} {f : PartForm} {k : Nat}
    (h : ∀ s, Costs (RC.analyse s f.partA) (R.analyse s f.partA) k) : Costs (tryKahaC RC ctx f) (tryKaha R ctx f) k := by
  unfold tryKahaC tryKaha
  exact costs_then (costs_ite (fun _ => costs_outcome (h _) (costs_uncounted _) (Nat.le_refl _)) fun _ => costs_none _)
    (fun _ _ => costs_none (k := 0) _) (by omega)

theorem costs_tosmabruTest {RC : RecC} {R : Rec} {ctx : ACtx} {f : PartForm} (hb : RC.build = R.build)
    (hsl : ∀ y mz v, Costs (RC.slinkuhi y mz v) (R.slinkuhi y mz v) 2) : Costs (tosmabruTestC RC ctx f) (tosmabruTest R ctx f) 2 := by
  unfold tosmabruTestC tosmabruTest
  refine costs_free fun toPart _ => ?_
  dsimp only
  refine costs_ite (fun _ => costs_none _) fun _ => costs_free fun bad _ => costs_ite (fun _ => costs_none _) fun _ =>
    costs_then (costs_succeeds (costs_jvokaha hb fun v _ => hsl _ _ _)) (fun _ _ => costs_ite (fun _ => costs_none (k := 0) _) fun _ => costs_none _) (by omega)

theorem costs_part {b : Build} {n : Nat} {ctx : ACtx} {i : Nat} {p : Str} {st : AState} (hst : ∀ d ∈ p, readChar d = [d]) (hy : 'y' ∉ p) :
    Costs (analysePartC (recNC b n) ctx i p st) (analysePart (recN b n) ctx i p st) (40 * p.length + 47) := by
  unfold analysePartC analysePart
  refine costs_free fun ⟨part, lead⟩ hs => ?_
  dsimp only
  refine costs_ite (fun _ => costs_none _) fun _ => costs_free fun c0 _ => costs_free fun f hf => ?_
  obtain ⟨-, hp0, -, -⟩ := stripLeadingH_ok hs
  have hsub : ∀ d ∈ part, d ∈ p := by
    intro d hd; rw [hp0]; split <;> simp [hd]
  have hlen : part.length ≤ p.length := by rw [hp0]; split <;> simp
  obtain ⟨e1, e2, e3, -⟩ := partForm_ok hf
  have hA : ∀ s, Costs ((recNC b n).analyse s f.partA) ((recN b n).analyse s f.partA) (20 * p.length + 25) := by
    intro s
    have hstA : ∀ d ∈ f.partA, readChar d = [d] := by
      intro d hd
      rw [e3] at hd
      rcases List.mem_append.1 hd with hd | hd
      · exact hst d (hsub d hd)
      · simp at hd; subst hd; decide
    have := reading_length_stable hstA
    have hl : f.partA.length = part.length + 1 := by rw [e3]; simp
    refine costs_mono (costs_no_y b n s (fun hd => ?_)) (by omega)
    have hd := reading_stable_mem hstA hd
    rw [e3] at hd
    rcases List.mem_append.1 hd with hd | hd
    · exact hy (hsub _ hd)
    · revert hd; decide
  have hcl : f.partCopy.length ≤ part.length := by
    have := congrArg List.length e1
    rw [List.length_append] at this
    omega
  have hPl : f.part.length ≤ p.length + 1 := by
    rw [e2, List.length_append]
    split <;> simp <;> omega
  refine costs_then (k := 20 * p.length + 25) (k' := 20 * p.length + 22) (costs_ite (fun _ => costs_tryKaha hA) fun _ => costs_none _) (fun ⟨found, did⟩ _ => ?_) (by omega)
  dsimp only
  refine costs_ite (fun _ => costs_ite (fun _ => costs_none _) fun _ => costs_then
    (costs_ite (fun _ => costs_tosmabruTest (rec_build b n) (costs_slinkuhi b n)) fun _ => costs_none _) (fun _ _ => costs_none (k := 0) _) (by omega)) fun _ =>
    costs_then (costs_outcome (costs_check_level b n _ _ _ _ _) (costs_uncounted _) (Nat.le_refl _)) (fun sh _ => costs_none (k := 0) _) (by omega)

theorem costs_loop {b : Build} {n : Nat} {ctx : ACtx} : ∀ {ps : List Str} {i : Nat} {st : AState},
    (∀ p ∈ ps, (∀ d ∈ p, readChar d = [d]) ∧ 'y' ∉ p) →
    Costs (analyseLoopC (recNC b n) ctx i ps st) (analyseLoop (recN b n) ctx i ps st) ((ps.map fun p => 40 * p.length + 47).sum) := by
  intro ps
  induction ps with
  | nil => intro i st _; exact costs_none _
  | cons p ps ih =>
    intro i st h
    unfold analyseLoopC analyseLoop
    rw [List.map_cons, List.sum_cons]
    exact costs_bind (costs_part (h p (by simp)).1 (h p (by simp)).2) fun _ _ => ih (fun q hq => h q (by simp [hq]))

theorem splitOn_sum (c : Char) (w : Str) : ((splitOn c w).map fun p => 40 * p.length + 47).sum ≤ 47 * (w.length + 1) := by
  have hj := joinSep_splitOn c w
  cases hs : splitOn c w with
  | nil => simp
  | cons p ps =>
    rw [hs] at hj
    have hlen : w.length = p.length + (ps.map (fun r => r.length + 1)).sum := by
      rw [← hj, joinSep, List.length_append, List.length_flatMap]
      simp
    have key : ∀ l : List Str, (l.map fun p => 40 * p.length + 47).sum ≤ 47 * (l.map (fun r => r.length + 1)).sum := by
      intro l
      induction l with
      | nil => simp
      | cons x l ih => simp only [List.map_cons, List.sum_cons]; omega
    have := key ps
    rw [List.map_cons, List.sum_cons]
    omega

theorem costs_y {b : Build} {n : Nat} {s : Settings} {c : Bool} {w : Str} (hst : ∀ d ∈ w, readChar d = [d]) :
    Costs (analyseYC (recNC b n) s c w (splitOn 'y' w)) (analyseY (recN b n) s c w (splitOn 'y' w)) (47 * (w.length + 1) + 2) := by
  unfold analyseYC analyseY
  refine costs_then (k' := 2) (costs_loop (fun p hp' => ⟨fun d hd => hst d (by rw [← joinSep_splitOn 'y' w]; exact joinSep_mem hp' hd), splitOn_not_mem 'y' w p hp'⟩))
    (fun st _ => costs_ite (fun _ => costs_none _) fun _ => costs_free fun c0 _ => costs_free fun sk _ => costs_then
      (costs_ite (fun _ => costs_tick (costs_isSlinkuhi (rec_build b n) (costs_slinkuhi_to b n _ _))) fun _ => costs_none _) (fun bad _ =>
        costs_ite (fun _ => costs_none (k := 0) _) fun _ => costs_none _) (Nat.le_refl _)) ?_
  have := splitOn_sum 'y' w
  omega

theorem costs_analyseR (b : Build) (n : Nat) (s : Settings) (w : Str) :
    Costs (analyseRC (recNC b n) s w) (analyseR (recN b n) s w) (47 * ((reading w).length + 1) + 4) := by
  unfold analyseRC analyseR
  refine costs_free fun m hm => ?_
  obtain ⟨hne, rfl⟩ := normalise_ok hm
  refine costs_norm (k := 47 * ((reading w).length + 1) + 2) (rec_build b n) (costs_slinkuhi b n) fun c0 l _ hl hcv => ?_
  unfold analyseRestC analyseRest
  refine costs_ite (fun _ => costs_none _) fun _ => costs_ite (fun _ => costs_ite (fun _ => costs_none _) fun hcm => ?_) fun hn =>
    costs_y (fun d => reading_chars)
  exact costs_outcome (costs_check_level b n _ _ _ _ _) (costs_uncounted _) (by omega)

theorem costs_analyse (b : Build) (n : Nat) (s : Settings) (w : Str) :
    Costs ((recNC b n).analyse s w) ((recN b n).analyse s w) (47 * (reading w).length + 52) := by
  cases n with
  | zero => rw [recNC, recN]; exact costs_mono (costs_tick (costs_none (k := 0) _)) (by omega)
  | succ n => rw [recNC, recN]; exact costs_mono (costs_tick (costs_analyseR b n s w)) (by omega)

/-! ## Making lujvo -/

theorem costs_rafsiKind {b : Build} {n : Nat} {s : Settings} {v : Str} (hst : ∀ d ∈ v, readChar d = [d]) :
    Costs (rafsiKindC (recNC b n) s v) (rafsiKind (recN b n) s v) (67 * v.length + 54) := by
  have hr := reading_length_stable hst
  unfold rafsiKindC rafsiKind
  refine costs_outcome (costs_analyse b n _ v) (k' := 20 * v.length + 2) ?_ (by omega)
  cases (recN b n).analyse { yHyphens := s.yHyphens, expRafsi := s.expRafsi, allowMz := s.allowMz } v with
  | ok r => exact costs_none _
  | error e =>
    cases e <;> first | exact costs_none _ | exact costs_ite (fun _ => costs_after (costs_check_level b n _ _ _ _ _)) fun _ => costs_none _

theorem costs_component {b : Build} {n : Nat} {s : Settings} {v : Str} (hst : ∀ d ∈ v, readChar d = [d]) (f l : Bool) :
    Costs (rafsiListForC (recNC b n) s f l v) (rafsiListFor (recN b n) s f l v) (67 * v.length + 99) := by
  have hr := reading_length_stable hst
  unfold rafsiListForC rafsiListFor
  refine costs_free fun d _ => costs_ite (fun _ => costs_free fun e _ => ?_) fun _ => ?_
  · dsimp only
    have hst' : ∀ d ∈ stripBoth (· == '-') v, readChar d = [d] := fun d hd => hst d (stripBoth_mem d hd)
    have hlen : (stripBoth (· == '-') v).length ≤ v.length := stripBoth_length
    refine costs_ite (fun _ => costs_none _) fun _ => costs_free fun d _ => costs_ite (fun _ => costs_none _) fun _ => costs_ite (fun _ => ?_) fun _ => ?_
    · unfold rafsiListShortC rafsiListShort
      have := reading_length_stable (v := stripBoth (· == '-') v ++ s%"a") (by
        intro d hd
        rcases List.mem_append.1 hd with hd | hd
        · exact hst' d hd
        · simp at hd; subst hd; decide)
      rw [List.length_append] at this
      simp only [List.length_singleton] at this
      exact costs_outcome (costs_analyse b n _ _) (costs_uncounted _) (by omega)
    · unfold rafsiListRafsiC rafsiListRafsi
      exact costs_ite (fun _ => costs_then (costs_rafsiKind hst') (fun _ _ => costs_none (k := 0) _) (by omega)) fun _ => costs_none _
  · unfold rafsiListWordC rafsiListWord
    exact costs_ite (fun _ => costs_none _) fun _ => costs_free fun sh _ => costs_outcome (costs_analyse b n _ _) (costs_uncounted _) (by omega)

theorem costs_getLujvo_level {b : Build} {n : Nat} {s : Settings} {g : Bool} {vs : List Str} (hst : ∀ v ∈ vs, ∀ d ∈ v, readChar d = [d]) :
    Costs (getLujvoFromListC (recNC b n) s g vs) (getLujvoFromList (recN b n) s g vs) ((vs.map fun v => 67 * v.length + 99).sum + 2) :=
  costs_getLujvo (rec_build b n) (costs_rafsiListList _ fun v hv f l => costs_component (hst v hv) f l) fun _ _ _ _ _ _ => costs_slinkuhi b n _ _ _

/-! ## Taking lujvo apart -/

theorem costs_analyseBrivla (b : Build) (s : Settings) (w : Str) : Costs (analyseBrivlaC b s w) (analyseBrivla b s w) (47 * (reading w).length + 52) := by
  unfold analyseBrivlaC analyseBrivla
  exact costs_mono (costs_tick (costs_analyseR b _ s w)) (by omega)

theorem costs_isBrivlaTop {b : Build} {s : Settings} {v : Str} {k : Nat} (h : (reading v).length ≤ k) :
    Costs (isBrivlaTopC b s v) (isBrivla b s v) (47 * k + 52) := by
  unfold isBrivlaTopC isBrivla
  exact costs_outcome (costs_analyseBrivla b s v) (costs_uncounted _) (by omega)

theorem costs_formatPiece {b : Build} {s : Settings} {pieces : List Str} {i : Nat} {p : Str} (hst : ∀ d ∈ p, readChar d = [d]) :
    Costs (formatPieceC b s pieces i p) (formatPiece b s pieces i p) (94 * p.length + 198) := by
  have h1 := reading_length_stable hst
  have h2 := reading_length_stable (v := p ++ s%"a") (by
    intro d hd
    rcases List.mem_append.1 hd with hd | hd
    · exact hst d hd
    · simp at hd; subst hd; decide)
  rw [List.length_append] at h2
  simp only [List.length_singleton] at h2
  unfold formatPieceC formatPiece
  dsimp only
  cases searchSelrafsi p with
  | some g => exact costs_none _
  | none =>
    dsimp only
    by_cases hi : i + 2 < pieces.length
    · refine costs_free fun nextY _ => costs_then (k := 47 * p.length + 99) (k' := 47 * p.length + 99)
        (costs_ite (fun _ => costs_mono (costs_isBrivlaTop h2) (by omega)) fun _ => costs_none _)
        (fun y1 _ => costs_ite (fun _ => costs_none _) fun _ => costs_then (k' := 0) (costs_isBrivlaTop h1) (fun y2 _ => costs_ite (fun _ => costs_none _) fun _ => ?_) (by omega)) (by omega)
      rw [if_neg (by omega), if_neg (by omega)]
      exact costs_free fun y3 _ => costs_ite (fun _ => costs_none _) fun _ => costs_none _
    · rw [if_neg hi]
      refine costs_free fun nextY hn => ?_
      cases hn
      refine costs_free (y := .ok false) fun y1 _ => costs_ite (fun _ => costs_none _) fun _ => costs_then (k' := 47 * p.length + 99) (costs_isBrivlaTop h1)
        (fun y2 _ => costs_ite (fun _ => costs_none _) fun _ => costs_then (k' := 0) (costs_ite (fun _ => costs_isBrivlaTop h2) fun _ => costs_none _)
          (fun y3 _ => costs_ite (fun _ => costs_none _) fun _ => costs_none _) (by omega)) (by omega)

theorem costs_selrafsi {b : Build} {s : Settings} {pieces : List Str} : ∀ {ps : List Str} {i : Nat}, (∀ p ∈ ps, ∀ d ∈ p, readChar d = [d]) →
    Costs (selrafsiFromC b s pieces i ps) (selrafsiFrom b s pieces i ps) (292 * ps.flatten.length) := by
  intro ps
  induction ps with
  | nil => intro i _; exact costs_none _
  | cons p ps ih =>
    intro i h
    unfold selrafsiFromC selrafsiFrom
    rw [List.flatten_cons, List.length_append]
    have ih := fun {i} => ih (i := i) fun q hq => h q (by simp [hq])
    refine costs_ite (fun _ => costs_mono ih (by omega)) fun hh => costs_then (costs_formatPiece (h p (by simp))) (fun a _ =>
      costs_then ih (fun r _ => costs_none (k := 0) _) (Nat.le_refl _)) ?_
    have : 0 < p.length := by
      cases p with
      | nil => simp at hh
      | cons => simp
    omega

theorem costs_getVeljvo (b : Build) (s : Settings) (w : Str) : Costs (getVeljvoC b s w) (getVeljvo b s w) (339 * (reading w).length + 52) := by
  unfold getVeljvoC getVeljvo
  refine costs_then (k' := 292 * (reading w).length) (costs_analyseBrivla b s w) (fun ⟨t, ps⟩ h => ?_) (by omega)
  have hf := C01_pieces_spell_word h
  dsimp only
  refine costs_ite (fun _ => costs_none _) fun _ => ?_
  unfold selrafsiList
  rw [← hf]
  refine costs_selrafsi fun p hp d hd => ?_
  have : d ∈ reading w := by rw [← hf]; exact List.mem_flatten.2 ⟨p, hp, hd⟩
  exact reading_chars this

theorem costs_scoreLujvo (b : Build) (s : Settings) (w : Str) : Costs (scoreLujvoC b s w) (scoreLujvo b s w) (386 * (reading w).length + 104) := by
  unfold scoreLujvoC scoreLujvo
  exact costs_then (costs_getVeljvo b s w) (fun _ _ => costs_then (costs_analyseBrivla b s w) (fun ⟨_, _⟩ _ => costs_none (k := 0) _) (Nat.le_refl _)) (by omega)

end Jvotci
