import Verif.Lemmas.Err

/-!
# Helper lemmas: the exceptions of `get_lujvo`, and the program as a fixed point of its equations
-/

namespace Jvotci

open Spec

theorem errs_apostrophise (f : Bool) (x : Str) : Errs [.index] (apostrophise f x) := by
  unfold apostrophise
  exact .ite (fun _ => .ok) fun _ => .bind (errs_idx (by decide) _ _) fun _ _ => .ite (fun _ => .ok) fun _ => .ok

theorem errs_getRafsiForRafsi {x : Str} {t : RType} {f l : Bool} {co : Consonants} {g : Bool}
    (h1 : t ≠ .tarmi .hyphen) (h2 : t ≠ .tarmi .other) : Errs [.index] (getRafsiForRafsi x t f l co g) := by
  unfold getRafsiForRafsi
  refine .bind (errs_apostrophise _ _) fun r _ => ?_
  have hi : Err.index ∈ [Err.index] := by decide
  cases t with
  | shortBrivla =>
    exact .ite (fun _ => .ok) fun _ => .bind (errs_idxLast hi _) fun _ _ => .ite (fun _ => .ok) fun _ => .ok
  | longBrivla => exact .ite (fun _ => .ok) fun _ => .ok
  | experimental =>
    have key : ∀ n : Nat, Errs [.index] (if l = true then Except.ok [(r, n)]
        else if (!f) = true then .ok [(r ++ s%"'y", n)] else .ok [(r ++ s%"'", n)]) :=
      fun n => .ite (fun _ => .ok) fun _ => .ite (fun _ => .ok) fun _ => .ok
    refine .ite (fun _ => .bind (errs_idx hi _ _) fun c _ => ?_) fun _ => key 0
    split
    · exact key 1
    · exact key 0
  | tarmi t =>
    cases t with
    | hyphen => exact absurd rfl h1
    | other => exact absurd rfl h2
    | cvccv => exact .ite (fun _ => .ok) fun _ => .ok
    | ccvcv => exact .ite (fun _ => .ok) fun _ => .ok
    | cvcc =>
      exact .ite (fun _ => .ok) fun _ => .bind (errs_idxLast hi _) fun _ _ => .ite (fun _ => .ok) fun _ => .ok
    | ccvc =>
      exact .ite (fun _ => .ok) fun _ => .bind (errs_idxLast hi _) fun _ _ => .ite (fun _ => .ok) fun _ => .ok
    | cvc => exact .ite (fun _ => .ok) fun _ => .ok
    | ccv => exact .ok
    | cvv => exact .ite (fun _ => .ok) fun _ => .ite (fun _ => .ok) fun _ => .ok
    | cvhv => exact .ite (fun _ => .ok) fun _ => .ite (fun _ => .ok) fun _ => .ok

theorem index_lujvoErrs (b : Build) : ∀ e ∈ [Err.index], e ∈ lujvoErrs b := by simp [lujvoErrs]

theorem analyseErrs_lujvoErrs (b : Build) : ∀ e ∈ analyseErrs b, e ∈ lujvoErrs b := by
  intro e he
  simp only [analyseErrs, lujvoErrs, List.mem_append, List.mem_cons, List.not_mem_nil, or_false] at he ⊢
  rcases he with (h | h | h) | h <;> simp [h]

theorem slinkuhiErrs_lujvoErrs (b : Build) : ∀ e ∈ slinkuhiErrs b, e ∈ lujvoErrs b :=
  fun e he => analyseErrs_lujvoErrs b e (slinkuhiErrs_sub b e he)

theorem zihevlaErrs_lujvoErrs (b : Build) : ∀ e ∈ zihevlaErrs b, e ∈ lujvoErrs b := by
  intro e he
  simp only [zihevlaErrs, lujvoErrs, List.mem_append, List.mem_cons, List.not_mem_nil, or_false] at he ⊢
  rcases he with (h | h | h | h) | h <;> simp [h]

theorem kahaErrs_lujvoErrs (b : Build) : ∀ e ∈ kahaErrs, e ∈ lujvoErrs b := by
  intro e he
  simp only [kahaErrs, lujvoErrs, List.mem_append, List.mem_cons, List.not_mem_nil, or_false] at he ⊢
  rcases he with h | h | h | h <;> simp [h]

variable {R : Rec} {k : Nat}

theorem errs_rafsiListShort {s : Settings} {f l : Bool} {v : Str} (hR : Good R k)
    (hst : ∀ d ∈ v, readChar d = [d]) (hk : v.length + 1 < k) :
    Errs (lujvoErrs R.build) (rafsiListShort R s f l v) := by
  have hn : .noLujvo ∈ lujvoErrs R.build := by simp [lujvoErrs]
  have ha : readChar 'a' = ['a'] := by decide
  unfold rafsiListShort
  refine .bind ?_ fun ⟨t, _⟩ _ => .ite (fun _ => .err hn) fun _ => .bind (errs_idxLast (by simp [lujvoErrs]) _) fun _ _ =>
    .ite (fun _ => ?_) fun _ => (errs_getRafsiForRafsi (by simp) (by simp)).mono (index_lujvoErrs _)
  · have := hR.analyse { yHyphens := s.yHyphens, expRafsi := s.expRafsi, allowMz := s.allowMz } (v ++ s%"a") (by
      intro d hd
      rcases List.mem_append.1 hd with hd | hd
      · exact hst d hd
      · simp at hd; subst hd; exact ha) (by simp; omega)
    unfold catchNotBrivla
    split
    · exact .err hn
    · exact this.mono (analyseErrs_lujvoErrs _)
  · split
    · exact .err hn
    · exact (errs_getRafsiForRafsi (by simp) (by simp)).mono (index_lujvoErrs _)
    · exact (errs_getRafsiForRafsi (by simp) (by simp)).mono (index_lujvoErrs _)
    · rename_i e _ _ he
      exact .err (kahaErrs_lujvoErrs _ _ (errs_jvokaha2 _ _ _ e he))

theorem errs_rafsiKind {s : Settings} {v : Str} (hR : Good R k)
    (hst : ∀ d ∈ v, readChar d = [d]) (hk : v.length < k) :
    Errs (lujvoErrs R.build) (rafsiKind R s v) := by
  have h1 : .notZihevla ∈ lujvoErrs R.build := by simp [lujvoErrs]
  have hn : .noLujvo ∈ lujvoErrs R.build := by simp [lujvoErrs]
  unfold rafsiKind
  split
  · exact .ite (fun _ => .ok) fun _ => .err h1
  · refine .ite (fun _ => ?_) fun _ => .err h1
    split
    · exact .ok
    · exact .err h1
    · exact .err hn
    · rename_i e _ he
      exact .err (zihevlaErrs_lujvoErrs _ _ (errs_checkZihevlaOrRafsi hR (by omega) hst (by omega) e he))
  · rename_i e _ he
    exact .err (analyseErrs_lujvoErrs _ _ (hR.analyse _ _ hst hk e he))

theorem rafsiKind_type {s : Settings} {v : Str} {t : RType} (h : rafsiKind R s v = .ok t) :
    t = .longBrivla ∨ t = .experimental := by
  unfold rafsiKind at h
  split at h
  · split at h <;> cases h; exact .inl rfl
  · split at h
    · split at h <;> cases h; exact .inr rfl
    · cases h
  · cases h

theorem errs_rafsiListRafsi {s : Settings} {f l : Bool} {v : Str} (hR : Good R k)
    (hst : ∀ d ∈ v, readChar d = [d]) (hk : v.length < k) :
    Errs (lujvoErrs R.build) (rafsiListRafsi R s f l v) := by
  unfold rafsiListRafsi
  refine .ite (fun _ => .bind (errs_rafsiKind hR hst hk) fun t ht => ?_) fun ho => .ite (fun _ => .err (by simp [lujvoErrs]))
    fun hv => (errs_getRafsiForRafsi ?_ ?_).mono (index_lujvoErrs _)
  · refine (errs_getRafsiForRafsi ?_ ?_).mono (index_lujvoErrs _) <;> rcases rafsiKind_type ht with rfl | rfl <;> simp
  · intro h
    simp only [RType.tarmi.injEq] at h
    apply hv
    unfold isValidRafsi
    rw [h]
    rfl
  · intro h
    simp only [RType.tarmi.injEq] at h
    exact ho h

theorem errs_rafsiListTable {s : Settings} {f l : Bool} : ∀ {rs : List Str},
    (∀ r ∈ rs, rafsiTarmi r ≠ .hyphen ∧ rafsiTarmi r ≠ .other) → Errs [.index] (rafsiListTable s f l rs) := by
  intro rs
  induction rs with
  | nil => intro _; exact .ok
  | cons r rs ih =>
    intro h
    have ih := ih (fun q hq => h q (by simp [hq]))
    have hr := h r (by simp)
    unfold rafsiListTable
    exact .ite (fun _ => ih) fun _ => .bind (errs_getRafsiForRafsi (by simpa using hr.1) (by simpa using hr.2)) fun _ _ =>
      .bind ih fun _ _ => .ok

theorem lookup_mem {α β : Type} [BEq α] [LawfulBEq α] {k : α} {v : β} : ∀ {l : List (α × β)},
    l.lookup k = some v → (k, v) ∈ l := by
  intro l
  induction l with
  | nil => intro h; simp at h
  | cons e l ih =>
    intro h
    obtain ⟨a, b⟩ := e
    rw [List.lookup_cons] at h
    split at h
    · rename_i he; cases h; simp at he; subst he; simp
    · exact List.mem_cons_of_mem _ (ih h)

theorem table_known {v : Str} : ∀ r ∈ (RAFSI_LIST.lookup v).getD [], 
    (rafsiTarmi r = .cvc ∨ rafsiTarmi r = .cvv ∨ rafsiTarmi r = .cvhv ∨ rafsiTarmi r = .ccv) ∧
    isValidRafsi false r = true := by
  intro r hr
  cases h : RAFSI_LIST.lookup v with
  | none => rw [h] at hr; simp at hr
  | some rs => rw [h] at hr; exact table_shapes _ (lookup_mem h) r hr

theorem errs_rafsiListWord {s : Settings} {f l : Bool} {v : Str} (hR : Good R k)
    (hst : ∀ d ∈ v, readChar d = [d]) (hk : v.length < k) :
    Errs (lujvoErrs R.build) (rafsiListWord R s f l v) := by
  have hg : ∀ x (t : RType), t = .shortBrivla ∨ t = .longBrivla →
      Errs (lujvoErrs R.build) (getRafsiForRafsi x t f l s.consonants s.glides) := by
    intro x t ht
    refine (errs_getRafsiForRafsi ?_ ?_).mono (index_lujvoErrs _) <;> rcases ht with rfl | rfl <;> simp
  unfold rafsiListWord
  refine .ite (fun _ => .err (by simp [lujvoErrs])) fun _ => .bind ((errs_rafsiListTable ?_).mono (index_lujvoErrs _))
    fun _ _ => .bind ?_ fun _ _ => .bind (.ite (fun _ => hg _ _ (.inl rfl)) fun _ => .ok) fun _ _ =>
    .bind (.ite (fun _ => hg _ _ (.inr rfl)) fun _ => .ok) fun _ _ => .ok
  · intro r hr
    rcases (table_known r hr).1 with h | h | h | h <;> simp [h]
  · split
    · exact .ok
    · exact .ok
    · rename_i e _ he
      exact .err (analyseErrs_lujvoErrs _ _ (hR.analyse _ _ hst hk e he))

theorem stripBoth_mem {p : Char → Bool} {v : Str} : ∀ d ∈ stripBoth p v, d ∈ v := by
  intro d hd
  unfold stripBoth at hd
  have h1 := (List.dropWhile_sublist p).subset (List.mem_reverse.1 hd)
  exact (List.dropWhile_sublist p).subset (List.mem_reverse.1 h1)

theorem stripBoth_length {p : Char → Bool} {v : Str} : (stripBoth p v).length ≤ v.length := by
  unfold stripBoth
  rw [List.length_reverse]
  have h1 := (List.dropWhile_sublist p (l := (v.dropWhile p).reverse)).length_le
  have h2 := (List.dropWhile_sublist p (l := v)).length_le
  rw [List.length_reverse] at h1
  omega

theorem errs_rafsiListFor {s : Settings} {f l : Bool} {v : Str} (hR : Good R k)
    (hst : ∀ d ∈ v, readChar d = [d]) (hk : v.length + 1 < k) :
    Errs (lujvoErrs R.build) (rafsiListFor R s f l v) := by
  have hi : .index ∈ lujvoErrs R.build := by simp [lujvoErrs]
  have hn : .nonLojban ∈ lujvoErrs R.build := by simp [lujvoErrs]
  unfold rafsiListFor
  refine .bind (errs_idxLast hi _) fun c hc => .ite (fun h => .bind (errs_idx hi _ _) fun _ _ => ?_) fun _ =>
    errs_rafsiListWord hR hst (by omega)
  have hlen : (stripBoth (· == '-') v).length ≤ v.length := stripBoth_length
  have hst' : ∀ d ∈ stripBoth (· == '-') v, readChar d = [d] := fun d hd => hst d (stripBoth_mem d hd)
  exact .ite (fun _ => .err hn) fun _ => .bind (errs_idxLast hi _) fun _ _ => .ite (fun _ => .err hn) fun _ =>
    .ite (fun _ => errs_rafsiListShort hR hst' (by omega)) fun _ => errs_rafsiListRafsi hR hst' (by omega)

theorem errs_rafsiListListFrom {s : Settings} {n : Nat} (hR : Good R k) : ∀ {vs : List Str} {i : Nat},
    (∀ v ∈ vs, (∀ d ∈ v, readChar d = [d]) ∧ v.length + 1 < k) →
    Errs (lujvoErrs R.build) (rafsiListListFrom R s n i vs) := by
  intro vs
  induction vs with
  | nil => intro i _; exact .ok
  | cons v vs ih =>
    intro i h
    unfold rafsiListListFrom
    exact .bind (errs_rafsiListFor hR (h v (by simp)).1 (h v (by simp)).2) fun _ _ =>
      .bind (ih (fun q hq => h q (by simp [hq]))) fun _ _ => .ok

theorem errs_getLujvoFromList {s : Settings} {g : Bool} {vs : List Str} (hR : Good R k)
    (h : ∀ v ∈ vs, (∀ d ∈ v, readChar d = [d]) ∧ v.length + 1 < k) :
    Errs (lujvoErrs R.build) (getLujvoFromList R s g vs) := by
  have hn : .noLujvo ∈ lujvoErrs R.build := by simp [lujvoErrs]
  unfold getLujvoFromList getRafsiListList
  refine .bind (errs_rafsiListListFrom hR h) fun ll _ => .bind ((errs_searchStages _ _).mono (index_lujvoErrs _)) fun best _ => ?_
  split
  · exact .err hn
  · exact .ite (fun _ => .bind ((errs_slinkuhiInJvozba (hR.slinkuhi _ _ _)).mono (slinkuhiErrs_lujvoErrs _)) fun _ _ =>
      .ite (fun _ => .err hn) fun _ => .ok) fun _ => .ok

theorem mapM_ok_mem {α β : Type} {f : α → Except Err β} : ∀ {l : List α} {r : List β}, l.mapM f = .ok r →
    ∀ y ∈ r, ∃ x ∈ l, f x = .ok y := by
  intro l
  induction l with
  | nil => intro r h; simp [pure, Except.pure] at h; subst h; simp
  | cons a l ih =>
    intro r h
    rw [List.mapM_cons] at h
    obtain ⟨b, hb, h⟩ := bind_ok h
    obtain ⟨bs, hbs, h⟩ := bind_ok h
    cases h
    intro y hy
    rcases List.mem_cons.1 hy with rfl | hy
    · exact ⟨a, by simp, hb⟩
    · obtain ⟨x, hx, h⟩ := ih hbs y hy
      exact ⟨x, by simp [hx], h⟩

theorem errs_mapM {α β : Type} {E : List Err} {f : α → Except Err β} (hf : ∀ a, Errs E (f a)) : ∀ {l : List α},
    Errs E (l.mapM f) := by
  intro l
  induction l with
  | nil => exact .ok
  | cons a l ih =>
    rw [List.mapM_cons]
    exact .bind (hf a) fun _ _ => .bind ih fun _ _ => .ok

theorem errs_normalise (w : Str) : Errs [.index] (normalise w) := by
  unfold normalise
  split
  · exact .err (by decide)
  · exact .ok

theorem errs_processTanru (t : Tanru) : Errs [.index] (processTanru t) := errs_mapM errs_normalise

theorem processTanru_stable {t : Tanru} {l : List Str} (h : processTanru t = .ok l) :
    ∀ v ∈ l, ∀ d ∈ v, readChar d = [d] := by
  intro v hv d hd
  obtain ⟨w, -, hw⟩ := mapM_ok_mem h v hv
  obtain ⟨-, rfl⟩ := normalise_ok hw
  exact reading_chars hd

theorem length_le_sum : ∀ {l : List Str} {v : Str}, v ∈ l → v.length ≤ (l.map List.length).sum := by
  intro l
  induction l with
  | nil => intro v h; cases h
  | cons a l ih =>
    intro v h
    rw [List.map_cons, List.sum_cons]
    rcases List.mem_cons.1 h with rfl | h
    · omega
    · have := ih h; omega

/-! ## The program without a recursion budget -/

/-- The record of the API functions themselves. -/
def program (b : Build) : Rec :=
  { build := b
    analyse := analyseBrivla b
    slinkuhi := isSlinkuhi (recN b 2) }

theorem program_build (b : Build) : (program b).build = b := rfl
theorem program_analyse (b : Build) (s : Settings) (v : Str) : (program b).analyse s v = analyseBrivla b s v := rfl
theorem program_slinkuhi (b : Build) (y : YHyphens) (mz : Bool) (v : Str) :
    (program b).slinkuhi y mz v = isSlinkuhi (recN b 2) y mz v := rfl

theorem rel_of_le {b : Build} {n m : Nat} (h : n ≤ m) (s : Settings) (w : Str) :
    Rel .fuel (analyseR (recN b n) s w) (analyseR (recN b m) s w) := rel_analyseR (relRec_fuel b n m h) s w

theorem analyseErrs_no_fuel (b : Build) : Err.fuel ∉ analyseErrs b := by
  cases b <;> simp [analyseErrs, nameErrs]

theorem lujvoErrs_no_fuel (b : Build) : Err.fuel ∉ lujvoErrs b := by
  cases b <;> simp [lujvoErrs, nameErrs]

theorem slinkuhiErrs_no_fuel (b : Build) : Err.fuel ∉ slinkuhiErrs b := by
  cases b <;> simp [slinkuhiErrs, nameErrs]

theorem analyse_stable {b : Build} {n : Nat} {s : Settings} {w : Str} (hn : 2 * w.length + 2 ≤ n) :
    analyseR (recN b n) s w = analyseBrivla b s w := by
  have key : ∀ n, 2 * w.length + 2 ≤ n →
      analyseR (recN b (2 * w.length + 2)) s w = analyseR (recN b n) s w := by
    intro n hn
    rcases rel_of_le hn s w with h | h
    · exact absurd (errs_analyseR_recN (Nat.le_refl _) _ h) (analyseErrs_no_fuel b)
    · exact h
  rw [← key n hn]
  exact key _ (by simp [budget])

theorem relRec_program (b : Build) (n : Nat) : RelRec .fuel (recN b n) (program b) := by
  refine ⟨.inl rfl, .inl (recN_build b n), fun s v => ?_, fun y mz v => ?_⟩
  · cases n with
    | zero => exact .inl rfl
    | succ n =>
      rw [recN_analyse, program_analyse, ← analyse_stable (n := n + (2 * v.length + 2)) (by omega)]
      exact rel_of_le (by omega) s v
  · have : (program b).slinkuhi y mz v = (recN b (n + 3)).slinkuhi y mz v := by
      rw [program_slinkuhi, ← recN_slinkuhi, show 2 + 1 = 1 + 2 from rfl, slinkuhi_stable (m := n + 1)]
    rw [this]
    exact (relRec_fuel b n (n + 3) (by omega)).slinkuhi y mz v

theorem analyseBrivla_program (b : Build) (s : Settings) (w : Str) :
    analyseBrivla b s w = analyseR (program b) s w := by
  rcases rel_analyseR (relRec_program b (budget w.length)) s w with h | h
  · exact absurd (errs_analyseR_recN (by simp [budget]) _ h) (analyseErrs_no_fuel b)
  · exact h

theorem slinkuhi_program (b : Build) (y : YHyphens) (mz : Bool) (v : Str) :
    (program b).slinkuhi y mz v = isSlinkuhi (program b) y mz v := by
  rw [program_slinkuhi]
  rcases rel_isSlinkuhi (relRec_program b 2) y mz v with h | h
  · exfalso
    have := errs_slinkuhi_recN b 1 y mz v
    rw [recN_slinkuhi] at this
    exact slinkuhiErrs_no_fuel b (this _ h)
  · exact h

theorem errs_analyseBrivla (b : Build) (s : Settings) (w : Str) : Errs (analyseErrs b) (analyseBrivla b s w) :=
  errs_analyseR_recN (by simp [budget])

theorem errs_getLujvo_recN {b : Build} {n : Nat} {s : Settings} {g : Bool} {t : Tanru} {l : List Str}
    (hl : processTanru t = .ok l) (hn : (l.map List.length).sum + 4 ≤ n) :
    Errs (lujvoErrs b) (getLujvoFromList (recN b n) s g l) := by
  have h := good_recN b (n - 2)
  rw [show n - 2 + 2 = n by omega] at h
  have := errs_getLujvoFromList (s := s) (g := g) h (vs := l)
    (fun v hv => ⟨processTanru_stable hl v hv, by have := length_le_sum hv; omega⟩)
  rwa [recN_build] at this

theorem getLujvo_program {b : Build} {n : Nat} {s : Settings} {g : Bool} {t : Tanru} {l : List Str}
    (hl : processTanru t = .ok l) (hn : (l.map List.length).sum + 4 ≤ n) :
    getLujvoFromList (recN b n) s g l = getLujvoFromList (program b) s g l := by
  rcases rel_getLujvoFromList (relRec_program b n) s g l with h | h
  · exact absurd (errs_getLujvo_recN hl hn _ h) (lujvoErrs_no_fuel b)
  · exact h

theorem ok_bind {α β : Type} {a : α} {f : α → Except Err β} : (Except.ok a >>= f) = f a := rfl

theorem error_bind {α β : Type} {e : Err} {f : α → Except Err β} : (Except.error e >>= f) = .error e := rfl

theorem getLujvoWithAnalytics_program (b : Build) (s : Settings) (g : Bool) (t : Tanru) :
    getLujvoWithAnalytics b s g t = (processTanru t >>= fun l => getLujvoFromList (program b) s g l) := by
  unfold getLujvoWithAnalytics
  cases hl : processTanru t with
  | error e => rw [error_bind, error_bind]
  | ok l =>
    have h : (l.map List.length).sum + 4 ≤ budget (l.map List.length).sum := by unfold budget; omega
    rw [ok_bind, ok_bind]
    exact getLujvo_program hl h

theorem errs_getLujvoWithAnalytics (b : Build) (s : Settings) (g : Bool) (t : Tanru) :
    Errs (lujvoErrs b) (getLujvoWithAnalytics b s g t) := by
  unfold getLujvoWithAnalytics
  refine .bind ((errs_processTanru t).mono (index_lujvoErrs b)) fun l hl => errs_getLujvo_recN hl ?_
  unfold budget
  omega

theorem good_program (b : Build) (k : Nat) : Good (program b) k := by
  refine ⟨fun y mz v => ?_, fun s v _ _ => ?_⟩
  · have := errs_slinkuhi_recN b 1 y mz v
    rw [recN_slinkuhi] at this
    rw [program_slinkuhi]
    exact this
  · rw [program_analyse]
    exact errs_analyseBrivla b s v

end Jvotci
