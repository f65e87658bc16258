import Verif.Lemmas.JsErr
import Verif.Lemmas.JsApi

/-!
# Helper lemmas: the exceptions of `getLujvo`, `getVeljvo` and `scoreLujvo` in JavaScript
-/

namespace Jvotci

open Spec

variable {J : JsRec}

/-! ## Any word, also one that `to` makes a single rafsi -/

theorem jerrs_isSlinkuhi_any {R : Rec} (h : AgRec R J) {y : YHyphens} {mz : Bool} {w : Str}
    (hs : ∀ t, ¬ Single y mz ('t' :: 'o' :: t) → JErrs [.notBrivla] (J.slinkuhi y mz ('t' :: 'o' :: t))) :
    JErrs [.notBrivla, .type] (jsIsSlinkuhi J y mz w) := by
  unfold jsIsSlinkuhi
  refine .ite (fun _ => .ok) fun _ => ?_
  have hk := jerrs_jvokaha h (y := y) (co := .cluster) (g := false) (mz := mz) (w := s%"to" ++ w) (by
    intro v hv hns
    match v, hv, hns with
    | a :: b :: t, hv, hns =>
      simp at hv
      obtain ⟨rfl, rfl, -⟩ := hv
      exact hs t hns
    | [], hv, _ => simp at hv
    | [a], hv, _ => simp at hv)
  split
  · exact .ok
  · exact .ok
  · exact .ok
  · rename_i e h1 h2 he
    rcases hk e he with h3 | ⟨rfl, -⟩
    · simp [jsKahaErrs] at h3
      rcases h3 with rfl | rfl | rfl
      · exact absurd rfl h1
      · exact absurd rfl h2
      · exact .err (by decide)
    · exact .err (by decide)

theorem jerrs_slinkuhi_any (n : Nat) {y : YHyphens} {mz : Bool} {w : Str} :
    JErrs [.notBrivla, .type] ((jsRecN (n + 2)).slinkuhi y mz w) :=
  jerrs_isSlinkuhi_any (agRec_recN (n + 1)) fun t hns => by rw [jslinkuhi_to n hns]; exact .ok

/-- What `getLujvo` needs of the functions it calls. -/
structure JsFull (J : JsRec) (k : Nat) : Prop where
  good : JsGood J k
  any : ∀ y mz v, JErrs [.notBrivla, .type] (J.slinkuhi y mz v)
  long : ∀ s v t ps, J.analyse s v = .ok (t, ps) → t = .gismu ∨ t = .zihevla → (∀ d ∈ v, readChar d = [d]) → 4 ≤ v.length

theorem jsAnalyse_long {n : Nat} {s : Settings} {v : Str} {t : BType} {ps : List Str} (h : (jsRecN n).analyse s v = .ok (t, ps))
    (ht : t = .gismu ∨ t = .zihevla) (hst : ∀ d ∈ v, readChar d = [d]) : 4 ≤ v.length := by
  cases n with
  | zero => cases h
  | succ n =>
    replace h : jsAnalyseR (jsRecN n) s v = .ok (t, ps) := h
    unfold jsAnalyseR at h
    simp only [jsNormalise_eq] at h
    have hlen := reading_length_stable hst
    suffices 4 ≤ (reading v).length by omega
    split at h
    · cases h
    split at h
    · cases h
    split at h
    · cases h
    split at h
    · rename_i hg
      cases h
      simp only [Bool.and_eq_true] at hg
      have hg := hg.2
      unfold jsIsGismu jsIsGismuShape at hg
      by_cases h5 : (reading v).length = 5
      · omega
      · simp [h5] at hg
    split at h
    · rename_i parts _
      cases h
      split at ht <;> simp at ht
    all_goals try cases h
    all_goals
      unfold jsAnalyseRest at h
      split at h
      · cases h
      split at h
      · split at h
        · cases h
        · split at h
          · rename_i sh hz
            cases h
            unfold jsCheckZihevlaOrRafsi at hz
            split at hz
            · cases hz
            · rename_i hn
              simp at hn
              exact hn
          · cases h
          · cases h
      · obtain ⟨st, -, h⟩ := jbind_ok h
        split at h
        · cases h
        · obtain ⟨bad, -, h⟩ := jbind_ok h
          split at h
          · cases h
          · cases h
            split at ht <;> simp at ht

theorem jsFull_recN (k : Nat) : JsFull (jsRecN (k + 2)) k :=
  ⟨jsGood_recN k, fun _ _ _ => jerrs_slinkuhi_any k, fun _ _ _ _ h ht hst => jsAnalyse_long h ht hst⟩

/-! ## The forms of a component -/

theorem jerrs_getRafsiForRafsi {x : Str} {t : RType} {f l : Bool} {co : Consonants} {g : Bool} {E : List JsErr}
    (h1 : t ≠ .tarmi .hyphen) (h2 : t ≠ .tarmi .other) : JErrs E (jsGetRafsiForRafsi x t f l co g) := by
  unfold jsGetRafsiForRafsi
  cases t with
  | shortBrivla => exact .ite (fun _ => .ok) fun _ => .ite (fun _ => .ok) fun _ => .ok
  | longBrivla => exact .ite (fun _ => .ok) fun _ => .ok
  | experimental => exact .ite (fun _ => .ok) fun _ => .ite (fun _ => .ok) fun _ => .ok
  | tarmi t =>
    cases t with
    | hyphen => exact absurd rfl h1
    | other => exact absurd rfl h2
    | ccv => exact .ok
    | _ => exact .ite (fun _ => .ok) fun _ => (by first | exact .ok | exact .ite (fun _ => .ok) fun _ => .ok)

theorem jsForm_long {x : Str} {t : RType} {f l : Bool} {co : Consonants} {g : Bool} {os : List RafsiOpt} {o : RafsiOpt}
    (h : jsGetRafsiForRafsi x t f l co g = .ok os) (ho : o ∈ os) : x.length ≤ o.1.length := by
  unfold jsGetRafsiForRafsi at h
  dsimp only at h
  have hx : x.length ≤ (if (!f && jsIsVowel (jsAt x 0) && !jsIsGlide x) = true then '\'' :: x else x).length := by
    split <;> simp
  generalize (if (!f && jsIsVowel (jsAt x 0) && !jsIsGlide x) = true then '\'' :: x else x) = r at h hx
  have key : ∀ {os : List RafsiOpt}, o ∈ os → (∀ p ∈ os, r.length ≤ p.1.length) → x.length ≤ o.1.length :=
    fun h1 h2 => Nat.le_trans hx (h2 o h1)
  cases t with
  | shortBrivla =>
    dsimp only at h
    repeat' split at h
    all_goals cases h; exact key ho (by simp)
  | longBrivla =>
    dsimp only at h
    repeat' split at h
    all_goals cases h; exact key ho (by simp)
  | experimental =>
    dsimp only at h
    generalize (if co ≠ .cluster ∧ (jsIsConsonant (jsAt r 0) || (g && jsIsGlide r)) = true then 1 else 0) = m at h
    split at h
    · cases h; exact key ho (by simp)
    · split at h
      · cases h; exact key ho (by simp)
      · cases h; exact key ho (by simp)
  | tarmi t =>
    cases t <;> dsimp only at h
    case hyphen => cases h
    case other => cases h
    case cvv =>
      generalize (if co = .cluster then 0 else 1) = m at h
      split at h
      · cases h; exact key ho (by simp)
      · split at h
        · cases h; exact key ho (by simp)
        · cases h; exact key ho (by simp)
    case cvhv =>
      generalize (if co = .cluster then 0 else 1) = m at h
      split at h
      · cases h; exact key ho (by simp)
      · split at h
        · cases h; exact key ho (by simp)
        · cases h; exact key ho (by simp)
    all_goals
      repeat' split at h
      all_goals cases h; exact key ho (by simp)

/-- The exceptions of `getLujvo`, apart from `TypeError`. -/
def jsLujvoErrs : List JsErr := [.noLujvo, .nonLojban, .notZihevla, .notBrivla, .decomposition, .invalidCluster]

/-- What is shown of one component: its exceptions, and the length of its forms. -/
structure Comp (ex : Bool) (x : Except JsErr (List RafsiOpt)) : Prop where
  errs : JErrs (.type :: jsLujvoErrs) x
  plain : ex = false → JErrs jsLujvoErrs x
  long : ex = false → ∀ os, x = .ok os → ∀ o ∈ os, 3 ≤ o.1.length

theorem Comp.of {ex : Bool} {x : Except JsErr (List RafsiOpt)} (h : JErrs jsLujvoErrs x) (hl : ∀ os, x = .ok os → ∀ o ∈ os, 3 ≤ o.1.length) :
    Comp ex x := ⟨h.mono (by intro e he; exact List.mem_cons_of_mem _ he), fun _ => h, fun _ => hl⟩

theorem Comp.err {ex : Bool} {e : JsErr} (h : e ∈ jsLujvoErrs) : Comp ex (.error e) := .of (.err h) nofun

theorem Comp.forms {ex : Bool} {x : Str} {t : RType} {f l : Bool} {co : Consonants} {g : Bool} (h1 : t ≠ .tarmi .hyphen)
    (h2 : t ≠ .tarmi .other) (hx : 3 ≤ x.length) : Comp ex (jsGetRafsiForRafsi x t f l co g) :=
  .of (jerrs_getRafsiForRafsi h1 h2) fun _ h _ ho => Nat.le_trans hx (jsForm_long h ho)

theorem Comp.ite {ex : Bool} {p : Prop} [Decidable p] {x y : Except JsErr (List RafsiOpt)} (h1 : p → Comp ex x) (h2 : ¬ p → Comp ex y) :
    Comp ex (if p then x else y) := by
  split
  · exact h1 ‹_›
  · exact h2 ‹_›

theorem comp_short {s : Settings} {f l : Bool} {v : Str} {k : Nat} (hJ : JsFull J k) (hst : ∀ d ∈ v, readChar d = [d])
    (hk : v.length + 1 < k) : Comp s.expRafsi (jsRafsiListShort J s f l v) := by
  have ha : readChar 'a' = ['a'] := by decide
  have hstA : ∀ d ∈ v ++ s%"a", readChar d = [d] := by
    intro d hd
    rcases List.mem_append.1 hd with hd | hd
    · exact hst d hd
    · simp at hd; subst hd; exact ha
  have he := hJ.good.analyse { yHyphens := s.yHyphens, expRafsi := s.expRafsi, allowMz := s.allowMz } (v ++ s%"a") hstA (by simp; omega)
  have hlong := hJ.long { yHyphens := s.yHyphens, expRafsi := s.expRafsi, allowMz := s.allowMz } (v ++ s%"a")
  unfold jsRafsiListShort
  cases hA : J.analyse { yHyphens := s.yHyphens, expRafsi := s.expRafsi, allowMz := s.allowMz } (v ++ s%"a") with
  | error e =>
    have := he e hA
    simp at this
    rcases this with rfl | rfl
    · exact Comp.err (by decide)
    · exact Comp.err (by decide)
  | ok a =>
    obtain ⟨t, ps⟩ := a
    show Comp _ (if t ≠ .zihevla ∧ t ≠ .gismu then _ else _)
    refine Comp.ite (fun _ => Comp.err (by decide)) fun ht => ?_
    have h3 : 3 ≤ v.length := by
      have := hlong t ps hA (by
        cases t <;> simp at ht ⊢) hstA
      simp at this
      omega
    refine Comp.ite (fun _ => ?_) fun _ => Comp.forms (by simp) (by simp) h3
    have hk := jerrs_jvokaha2 s.yHyphens s.allowMz v
    split
    · exact Comp.err (by decide)
    · exact Comp.forms (by simp) (by simp) h3
    · exact Comp.forms (by simp) (by simp) h3
    · rename_i e h4 h5 he
      have := hk e he
      simp [jsKahaErrs] at this
      rcases this with h6 | h6 | h6
      · exact absurd h6 h4
      · exact absurd h6 h5
      · subst h6; exact Comp.err (by decide)

theorem jerrs_checkZihevla_any {rz : Bool} {y : YHyphens} {ex mz : Bool} {v : Str} {k : Nat}
    (hJ : JsFull J k) (h0 : 0 < k) (hst : ∀ d ∈ v, readChar d = [d]) (hk : v.length ≤ k) :
    JErrs (.type :: jsZihErrs) (jsCheckZihevlaOrRafsi J rz y ex mz v) := by
  have hz : .notZihevla ∈ JsErr.type :: jsZihErrs := by decide
  have hd : ∀ j, 0 < j → ∀ s, JErrs [.notBrivla, .decomposition] (J.analyse s (v.drop j)) := by
    intro j hj s
    refine hJ.good.analyse _ _ (fun d hd => hst d (List.mem_of_mem_drop hd)) ?_
    rw [List.length_drop]; omega
  unfold jsCheckZihevlaOrRafsi
  refine .ite (fun _ => .err hz) fun hlen => .bind ((jerrs_zihScan mz v).mono (by decide)) fun st hst' =>
    .ite (fun _ => .err hz) fun _ => .bind ?_ fun _ _ => ?_
  · split
    · rename_i p hp
      refine .ite (fun h1 => .bind ((jerrs_isBrivlaR (hd p h1.2 _)).mono (by decide)) fun _ _ => .ite (fun _ => .err hz)
        fun _ => (jerrs_fallsApartBefore hd _ _ (by omega) (by intro j h2 h3; omega)).mono (by decide)) fun _ => .ok
    · exact .ok
  · cases hcl : st.clusterPos with
    | none =>
      exact .ite (fun _ => .err hz) fun _ => .ite (fun _ => .err hz) fun _ =>
        .ite (fun _ => .err hz) fun _ => .ite (fun _ => .err hz) fun _ => .ok
    | some p =>
      exact .ite (fun _ => .bind ((hJ.any _ _ _).mono (by decide)) fun _ _ => .ite (fun _ => .err hz) fun _ => .ok)
        fun _ => .ok

theorem comp_rafsi {s : Settings} {f l : Bool} {v : Str} {k : Nat} (hJ : JsFull J k) (hst : ∀ d ∈ v, readChar d = [d])
    (hk : v.length < k) : Comp s.expRafsi (jsRafsiListRafsi J s f l v) := by
  have he := hJ.good.analyse { yHyphens := s.yHyphens, expRafsi := s.expRafsi, allowMz := s.allowMz } v hst hk
  have hlong := hJ.long { yHyphens := s.yHyphens, expRafsi := s.expRafsi, allowMz := s.allowMz } v
  unfold jsRafsiListRafsi
  refine Comp.ite (fun _ => ?_) fun ho => Comp.ite (fun _ => Comp.err (by decide)) fun hv => ?_
  · unfold jsRafsiKind
    cases hA : J.analyse { yHyphens := s.yHyphens, expRafsi := s.expRafsi, allowMz := s.allowMz } v with
    | ok a =>
      obtain ⟨t, ps⟩ := a
      dsimp only
      by_cases ht : t = .zihevla
      · rw [if_pos ht]
        exact Comp.forms (x := v) (t := .longBrivla) (co := s.consonants) (g := s.glides) nofun nofun (by have := hlong t ps hA (.inr ht) hst; omega)
      · rw [if_neg ht]
        exact Comp.err (by decide)
    | error e =>
      have := he e hA
      simp at this
      rcases this with rfl | rfl
      · dsimp only
        cases hex : s.expRafsi with
        | false => exact Comp.err (by decide)
        | true =>
          refine ⟨?_, nofun, nofun⟩
          rw [if_pos rfl]
          have hz := jerrs_checkZihevla_any (rz := false) (y := s.yHyphens) (ex := true) (mz := s.allowMz) hJ (by omega) hst (by omega : v.length ≤ k)
          cases hc : jsCheckZihevlaOrRafsi J false s.yHyphens true s.allowMz v with
          | ok sh =>
            cases sh with
            | rafsi => exact jerrs_getRafsiForRafsi (t := .experimental) nofun nofun
            | zihevla => exact .err (by decide)
          | error e =>
            have := hz e hc
            simp [jsZihErrs] at this
            rcases this with rfl | rfl | rfl | rfl <;> exact .err (by decide)
      · exact Comp.err (by decide)
  · rw [jsIsValidRafsi_eq] at hv
    have hr : Rafsi s.allowMz v := isValidRafsi_iff.1 (by simpa using hv)
    refine Comp.forms ?_ ?_ (rafsi_length hr).1
    · intro h
      simp only [RType.tarmi.injEq] at h
      apply hv
      unfold isValidRafsi
      rw [jsRafsiTarmi_eq] at h
      rw [h]
      rfl
    · intro h
      simp only [RType.tarmi.injEq] at h
      exact ho h

theorem comp_table {s : Settings} {f l : Bool} : ∀ {rs : List Str}, (∀ r ∈ rs, rafsiTarmi r ≠ .hyphen ∧ rafsiTarmi r ≠ .other ∧ 3 ≤ r.length) →
    ∃ os, jsRafsiListTable s f l rs = .ok os ∧ ∀ o ∈ os, 3 ≤ o.1.length := by
  intro rs
  induction rs with
  | nil => intro _; exact ⟨[], rfl, nofun⟩
  | cons r rs ih =>
    intro h
    obtain ⟨os, e, hos⟩ := ih (fun q hq => h q (by simp [hq]))
    have hr := h r (by simp)
    unfold jsRafsiListTable
    rw [jsRafsiTarmi_eq, if_neg (fun h => hr.2.1 h.1)]
    cases hg : jsGetRafsiForRafsi r (.tarmi (rafsiTarmi r)) f l s.consonants s.glides with
    | error e => exact absurd (jerrs_getRafsiForRafsi (E := []) (by simpa using hr.1) (by simpa using hr.2.1) e hg) (by simp)
    | ok a =>
      rw [e]
      refine ⟨a ++ os, rfl, fun o ho => ?_⟩
      rcases List.mem_append.1 ho with ho | ho
      · exact Nat.le_trans hr.2.2 (jsForm_long hg ho)
      · exact hos o ho

theorem comp_word {s : Settings} {f l : Bool} {v : Str} {k : Nat} (hJ : JsFull J k) (hst : ∀ d ∈ v, readChar d = [d])
    (hk : v.length < k) : Comp s.expRafsi (jsRafsiListWord J s f l v) := by
  have he := hJ.good.analyse { yHyphens := s.yHyphens, expRafsi := s.expRafsi, allowMz := s.allowMz } v hst hk
  have hlong := hJ.long { yHyphens := s.yHyphens, expRafsi := s.expRafsi, allowMz := s.allowMz } v
  obtain ⟨short, hshort, hsl⟩ := comp_table (s := s) (f := f) (l := l) (rs := (RAFSI_LIST.lookup v).getD []) (by
    intro r hr
    have h := table_known r hr
    refine ⟨?_, ?_, (rafsi_length (isValidRafsi_iff.1 h.2)).1⟩ <;> rcases h.1 with h | h | h | h <;> simp [h])
  have hforms : ∀ x (t : RType), t = .shortBrivla ∨ t = .longBrivla → ∃ os, jsGetRafsiForRafsi x t f l s.consonants s.glides = .ok os := by
    intro x t ht
    cases hg : jsGetRafsiForRafsi x t f l s.consonants s.glides with
    | ok os => exact ⟨os, rfl⟩
    | error e => exact absurd (jerrs_getRafsiForRafsi (E := []) (by rcases ht with rfl | rfl <;> simp) (by rcases ht with rfl | rfl <;> simp) e hg) (by simp)
  unfold jsRafsiListWord
  refine Comp.ite (fun _ => Comp.err (by decide)) fun _ => ?_
  rw [hshort]
  have fin : ∀ o : Option BType, (o = some .gismu ∨ o = some .zihevla → 4 ≤ v.length) → Comp s.expRafsi (do
      let four ← (if o = some .gismu then
          jsGetRafsiForRafsi (dropLastN v 1) .shortBrivla f l s.consonants s.glides
        else Except.ok [])
      let long ← (if o = some .gismu ∨ o = some .zihevla then
          jsGetRafsiForRafsi v .longBrivla f l s.consonants s.glides
        else Except.ok [])
      .ok (short ++ four ++ long)) := by
    intro o ho
    obtain ⟨four, hf, hfl⟩ : ∃ four, (if o = some .gismu then
          jsGetRafsiForRafsi (dropLastN v 1) .shortBrivla f l s.consonants s.glides
        else Except.ok []) = .ok four ∧ ∀ q ∈ four, 3 ≤ q.1.length := by
      split
      · rename_i h
        obtain ⟨os, e⟩ := hforms (dropLastN v 1) .shortBrivla (.inl rfl)
        refine ⟨os, e, fun q hq => ?_⟩
        have := jsForm_long e hq
        rw [dropLastN_length] at this
        have := ho (.inl h)
        omega
      · exact ⟨[], rfl, nofun⟩
    obtain ⟨long, hl, hll⟩ : ∃ long, (if o = some .gismu ∨ o = some .zihevla then
          jsGetRafsiForRafsi v .longBrivla f l s.consonants s.glides
        else Except.ok []) = .ok long ∧ ∀ q ∈ long, 3 ≤ q.1.length := by
      split
      · rename_i h
        obtain ⟨os, e⟩ := hforms v .longBrivla (.inr rfl)
        refine ⟨os, e, fun q hq => ?_⟩
        have := jsForm_long e hq
        have := ho h
        omega
      · exact ⟨[], rfl, nofun⟩
    rw [hf, hl]
    refine Comp.of .ok fun os e q hq => ?_
    cases e
    simp only [List.mem_append] at hq
    rcases hq with (h | h) | h
    · exact hsl q h
    · exact hfl q h
    · exact hll q h
  cases hA : J.analyse { yHyphens := s.yHyphens, expRafsi := s.expRafsi, allowMz := s.allowMz } v with
  | ok a =>
    obtain ⟨t, ps⟩ := a
    exact fin (some t) (fun h => hlong t ps hA (by simpa using h) hst)
  | error e =>
    have := he e hA
    simp at this
    rcases this with rfl | rfl
    · exact fin none (by simp)
    · exact Comp.err (by decide)

theorem comp_for {s : Settings} {f l : Bool} {v : Str} {k : Nat} (hJ : JsFull J k) (hst : ∀ d ∈ v, readChar d = [d])
    (hk : v.length + 1 < k) : Comp s.expRafsi (jsRafsiListFor J s f l v) := by
  unfold jsRafsiListFor
  have hlen : (stripBoth (· == '-') v).length ≤ v.length := stripBoth_length
  have hst' : ∀ d ∈ stripBoth (· == '-') v, readChar d = [d] := fun d hd => hst d (stripBoth_mem d hd)
  exact Comp.ite (fun _ => Comp.ite (fun _ => Comp.err (by decide)) fun _ => Comp.ite (fun _ => Comp.err (by decide)) fun _ =>
    Comp.ite (fun _ => comp_short hJ hst' (by omega)) fun _ => comp_rafsi hJ hst' (by omega)) fun _ => comp_word hJ hst (by omega)

theorem comp_list {s : Settings} {n k : Nat} (hJ : JsFull J k) : ∀ {vs : List Str} {i : Nat},
    (∀ v ∈ vs, (∀ d ∈ v, readChar d = [d]) ∧ v.length + 1 < k) →
    JErrs (.type :: jsLujvoErrs) (jsRafsiListListFrom J s n i vs) ∧
    (s.expRafsi = false → JErrs jsLujvoErrs (jsRafsiListListFrom J s n i vs)) ∧
    ∀ ll, jsRafsiListListFrom J s n i vs = .ok ll → ll.length = vs.length ∧ (s.expRafsi = false → ∀ l ∈ ll, ∀ o ∈ l, 3 ≤ o.1.length) := by
  intro vs
  induction vs with
  | nil =>
    intro i _
    refine ⟨.ok, fun _ => .ok, fun ll h => ?_⟩
    cases h
    exact ⟨rfl, fun _ => nofun⟩
  | cons v vs ih =>
    intro i h
    have hv := h v (by simp)
    have hc := comp_for (s := s) (f := i == 0) (l := i + 1 == n) hJ hv.1 hv.2
    obtain ⟨i1, i2, i3⟩ := ih (i := i + 1) (fun q hq => h q (by simp [hq]))
    unfold jsRafsiListListFrom
    refine ⟨.bind hc.errs fun _ _ => .bind i1 fun _ _ => .ok, fun hex => .bind (hc.plain hex) fun _ _ => .bind (i2 hex) fun _ _ => .ok, fun ll h => ?_⟩
    obtain ⟨a, ha, h⟩ := jbind_ok h
    obtain ⟨b, hb, h⟩ := jbind_ok h
    cases h
    obtain ⟨h1, h2⟩ := i3 b hb
    refine ⟨by simp [h1], fun hex l hl => ?_⟩
    rcases List.mem_cons.1 hl with rfl | hl
    · exact hc.long hex _ ha
    · exact h2 hex l hl

/-! ## The search -/

/-- Every word found so far has at least `m` letters and ends with the letter it is kept under. -/
def LongBest (m : Nat) (b : Best) : Prop := ∀ e ∈ b, m ≤ e.2.1.length ∧ e.2.1.getLast? = some e.1.2.2

theorem longBest_update {m : Nat} {c : Option Cand} {b : Best} (hc : ∀ d, c = some d → m ≤ d.lujvo.length) (hb : LongBest m b) :
    LongBest m (jsUpdateCurrentBest c b) := by
  unfold jsUpdateCurrentBest
  cases c with
  | none => exact hb
  | some c =>
    dsimp only
    cases hl : c.lujvo.getLast? with
    | none => exact hb
    | some l =>
      intro e he
      rcases bestInsert_mem he with rfl | he
      · exact ⟨hc c rfl, hl⟩
      · exact hb e he

theorem jsCombine_long {o : CombineOpts} {a b : Str} {m n : Nat} {sc : Int} {ix : List (Nat × Nat)} {tos : Tos} {c : Cand}
    (h : jsCombine o a b m n sc ix tos = some c) : a.length + b.length ≤ c.lujvo.length := by
  unfold jsCombine at h
  dsimp only at h
  repeat' split at h
  all_goals cases h
  all_goals
    dsimp only
    simp only [List.length_append]
    omega

theorem foldl_keeps {α β : Type} {P : β → Prop} {f : β → α → β} : ∀ {l : List α}, (∀ b, ∀ a ∈ l, P b → P (f b a)) → ∀ b, P b → P (l.foldl f b)
  | [], _, _, h => h
  | a :: l, hf, b, h => foldl_keeps (l := l) (fun b a ha => hf b a (List.mem_cons_of_mem _ ha)) _ (hf b a (List.mem_cons_self ..) h)

theorem jsSearch_long {o : CombineOpts} {ll : List (List RafsiOpt)} {b : Best} (h : jsSearchStages o ll = .ok b)
    (hl : ∀ l ∈ ll, ∀ r ∈ l, 3 ≤ r.1.length) : LongBest 4 b := by
  unfold jsSearchStages at h
  match ll, h, hl with
  | [], h, _ => cases h
  | [l0], h, _ =>
    dsimp only at h
    split at h <;> cases h
    exact nofun
  | l0 :: l1 :: rest, h, hl =>
    cases h
    refine foldl_keeps (fun b l hlm hb => ?_) _ ?_
    · unfold jsNextStage
      refine foldl_keeps (fun b' r hr hb' => foldl_keeps (fun b' t _ hb' => foldl_keeps (fun b' n _ hb' =>
        foldl_keeps (fun b' e he hb' => longBest_update ?_ hb') b' hb') b' hb') b' hb') [] nofun
      intro d hd
      have := jsCombine_long hd
      have h1 := hl l (by simp [hlm]) r hr
      unfold bucket at he
      rw [List.mem_filterMap] at he
      obtain ⟨e', he', h⟩ := he
      split at h
      · cases h
        have := (hb e' he').1
        dsimp only at *
        omega
      · cases h
    · unfold jsFirstStage
      refine foldl_keeps (fun b r0 hr0 hb => foldl_keeps (fun b r1 hr1 hb => longBest_update ?_ hb) b hb) [] nofun
      intro d hd
      have := jsCombine_long hd
      have h0 := hl l0 (by simp) r0 hr0
      have h1 := hl l1 (by simp) r1 hr1
      omega

theorem jerrs_getLujvoFromList {s : Settings} {g : Bool} {vs : List Str} {k : Nat} (hJ : JsFull J k)
    (h : ∀ v ∈ vs, (∀ d ∈ v, readChar d = [d]) ∧ v.length + 1 < k) :
    JErrs (.type :: jsLujvoErrs) (jsGetLujvoFromList J s g vs) ∧
    (s.expRafsi = false → 2 ≤ vs.length → JErrs jsLujvoErrs (jsGetLujvoFromList J s g vs)) := by
  obtain ⟨h1, h2, h3⟩ := comp_list (s := s) (n := vs.length) (i := 0) hJ h
  have hn : .noLujvo ∈ jsLujvoErrs := by decide
  have hn' : .noLujvo ∈ JsErr.type :: jsLujvoErrs := by decide
  unfold jsGetLujvoFromList jsGetRafsiListList
  constructor
  · refine .bind h1 fun ll hll => .bind ?_ fun best hbest => ?_
    · unfold jsSearchStages
      split
      · exact .err (by decide)
      · exact .ite (fun _ => .ok) fun _ => .err (by decide)
      · exact .ok
    · split
      · exact .err hn'
      · exact .ite (fun _ => .bind ((hJ.any _ _ _).mono (by decide)) fun _ _ => .ite (fun _ => .err hn') fun _ => .ok) fun _ => .ok
  · intro hex hlen
    refine .bind (h2 hex) fun ll hll => ?_
    obtain ⟨hl1, hl2⟩ := h3 ll hll
    refine .bind ?_ fun best hbest => ?_
    · match ll, hl1 with
      | [], h => simp at h; omega
      | [_], h => simp at h; omega
      | _ :: _ :: _, _ => exact .ok
    · have hb := jsSearch_long hbest (hl2 hex)
      rw [jsPickBest_eq]
      cases hp : pickBest g best with
      | none => exact .err hn
      | some r =>
        refine .ite (fun hg => .bind ((hJ.good.slinkuhi _ _ _ fun hs => ?_).mono (by decide)) fun _ _ => .ite (fun _ => .err hn) fun _ => .ok) fun _ => .ok
        obtain ⟨l, hm, hl⟩ := pickBest_mem hp
        obtain ⟨h4, hlast⟩ := hb _ hm
        have := (single_short hs (by
          rw [hlast]
          rintro ⟨⟩
          rcases hl with hl | hl
          · exact absurd hl.1 (by decide)
          · exact absurd hl.1 (by decide))).1
        dsimp only at h4
        omega

/-! ## The API -/

theorem jsProcessTanru_stable (t : Tanru) : ∀ v ∈ jsProcessTanru t, ∀ d ∈ v, readChar d = [d] := by
  intro v hv d hd
  unfold jsProcessTanru at hv
  obtain ⟨w, -, rfl⟩ := List.mem_map.1 hv
  rw [jsNormalise_eq] at hd
  exact reading_chars hd

theorem jerrs_getLujvoWithAnalytics (s : Settings) (g : Bool) (t : Tanru) :
    JErrs (.type :: jsLujvoErrs) (jsGetLujvoWithAnalytics s g t) ∧
    (s.expRafsi = false → 2 ≤ (jsProcessTanru t).length → JErrs jsLujvoErrs (jsGetLujvoWithAnalytics s g t)) := by
  unfold jsGetLujvoWithAnalytics
  have hn : ((jsProcessTanru t).map List.length).sum + 4 ≤ budget ((jsProcessTanru t).map List.length).sum := by unfold budget; omega
  dsimp only
  generalize budget ((jsProcessTanru t).map List.length).sum = n at hn
  have hJ := jsFull_recN (n - 2)
  rw [show n - 2 + 2 = n by omega] at hJ
  exact jerrs_getLujvoFromList hJ fun v hv => ⟨jsProcessTanru_stable t v hv, by have := length_le_sum hv; omega⟩

theorem jerrs_isBrivla (s : Settings) (w : Str) : JErrs [.decomposition] (jsIsBrivla s w) := by
  unfold jsIsBrivla
  split
  · exact .ok
  · exact .ok
  · rename_i e h1 h2
    have := jerrs_analyseBrivla s w e h2
    simp [jsAnalyseErrs] at this
    rcases this with h3 | h3
    · exact absurd h3 h1
    · exact .err (by simp [h3])

theorem jerrs_selrafsiFrom (s : Settings) (pieces : List Str) : ∀ (l : List Str) (i : Nat), JErrs [.decomposition] (jsSelrafsiFrom s pieces i l)
  | [], _ => .ok
  | p :: ps, i => by
    unfold jsSelrafsiFrom
    refine .ite (fun _ => jerrs_selrafsiFrom s pieces ps _) fun _ => .bind ?_ fun _ _ => .bind (jerrs_selrafsiFrom s pieces ps _) fun _ _ => .ok
    unfold jsFormatPiece
    split
    · exact .ok
    · exact .bind (.ite (fun _ => jerrs_isBrivla _ _) fun _ => .ok) fun _ _ => .ite (fun _ => .ok) fun _ =>
        .bind (jerrs_isBrivla _ _) fun _ _ => .ite (fun _ => .ok) fun _ =>
        .bind (.ite (fun _ => jerrs_isBrivla _ _) fun _ => .ok) fun _ _ => .ite (fun _ => .ok) fun _ => .ok

theorem jerrs_getVeljvo (s : Settings) (w : Str) : JErrs jsAnalyseErrs (jsGetVeljvo s w) := by
  unfold jsGetVeljvo
  exact .bind (jerrs_analyseBrivla s w) fun ⟨t, ps⟩ _ => .ite (fun _ => .err (by decide)) fun _ => (jerrs_selrafsiFrom s ps ps 0).mono (by decide)

theorem jerrs_scoreLujvo (s : Settings) (w : Str) : JErrs jsAnalyseErrs (jsScoreLujvo s w) := by
  unfold jsScoreLujvo
  exact .bind (jerrs_getVeljvo s w) fun _ _ => .bind (jerrs_analyseBrivla s w) fun _ _ => .ok

end Jvotci
