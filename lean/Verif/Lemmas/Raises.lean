import Verif.Lemmas.Found
import Verif.Lemmas.NoIndex

/-!
# Helper lemmas: what the search raises
-/

namespace Jvotci

open Spec

/-- What a component can make the code raise, besides `IndexError`. -/
def spelledErrs : List Err := [.noLujvo, .nonLojban, .notZihevla, .invalidCluster]

/-- The component has a dash behind `r` after two vowels. -/
def DashedR (v : Str) : Prop :=
  ∃ x i j, v = List.replicate i '-' ++ x ++ List.replicate (j + 1) '-' ∧ LateR x

theorem lateR_of {x : Str} (h : LoneR x) (hy : 'y' ∉ x) : LateR x := by
  obtain ⟨u, a, b, rfl, h | h⟩ := h
  · exact ⟨u, a, b, rfl, h⟩
  · exact absurd (by rw [h.2]; simp) hy

theorem errs_slinkuhi_index {y : YHyphens} {mz : Bool} {w : Str} (hl : ∃ c, w.getLast? = some c ∧ (Vowel c ∨ Consonant c)) :
    Errs [.index] ((program .linked).slinkuhi y mz w) := by
  rw [slinkuhi_program]
  by_cases hj : jvokaha2 y mz (s%"to" ++ w) = .error .index
  · unfold isSlinkuhi jvokaha
    rw [hj]
    refine .bind (errs_idx (by simp) _ _) fun _ _ => .ite (fun _ => .ok) fun _ => ?_
    exact .err (by simp)
  · obtain ⟨t, ht⟩ := slinkuhi_ok hl hj
    rw [ht]; exact .ok

/-- The zi'evla test raises nothing else than the slinku'i test does. -/
theorem errs_checkZihevla_index {rz : Bool} {y : YHyphens} {ex mz : Bool} {v : Str} (hne : v ≠ [])
    (hl : ∃ c, v.getLast? = some c ∧ (Vowel c ∨ Consonant c))
    (hd : ∀ j, 0 < j → j < v.length → ∀ s, Errs [.notBrivla] ((program .linked).analyse s (v.drop j))) :
    Errs [.notZihevla, .index] (checkZihevlaOrRafsi (program .linked) rz y ex mz v) := by
  have hs := errs_slinkuhi_index (y := y) (mz := mz) hl
  have hz : Err.notZihevla ∈ [Err.notZihevla, Err.index] := by simp
  have h0 : 0 < v.length := List.length_pos_iff.2 hne
  unfold checkZihevlaOrRafsi
  refine .ite (fun _ => .err hz) fun _ => .bind ((errs_zihScan (by omega)).mono (by simp)) fun st hst => ?_
  have hcl : ∀ p, st.clusterPos = some p → p + 1 < v.length := by
    intro p hp
    obtain ⟨-, -, c3⟩ := zihScan_cluster (pre := []) hst rfl rfl rfl
      (fun _ a b hab => by obtain ⟨x, z, e⟩ := hab; simp at e) (by simp) (fun hh => absurd rfl hh)
    obtain ⟨u, ch, t, hF, e⟩ := c3 (by rw [hp]; simp)
    rw [hp] at e
    cases e
    have := hF.long
    rw [hF.eq]
    simp
    omega
  refine .ite (fun _ => .err hz) fun _ => .bind ?_ fun _ _ => ?_
  · split
    · rename_i p hp
      have hpl := hcl p hp
      refine .ite (fun h1 => ?_) fun _ => .ok
      obtain ⟨t, ht⟩ := clean_isBrivlaR (hd p h1.2 (by omega) { yHyphens := y })
      rw [ht]
      exact .bind .ok fun _ _ => .ite (fun _ => .err hz)
        fun _ => (clean_fallsApartBefore (by omega) hd _ _ (by omega)).mono (by simp)
    · exact .ok
  · split
    · refine .ite (fun _ => .err hz) fun _ => .bind (idx_clean h0) fun c _ => .ite (fun _ => .err hz) fun _ =>
        .ite (fun _ => .err hz) fun _ => .ite (fun _ => .err hz) fun _ => .ok
    · rename_i p hp
      have hpl := hcl p hp
      refine .bind (idx_clean h0) fun c _ => .bind (.ite (fun _ => .bind (idx_clean (by omega)) fun _ _ => .ok) fun _ => .ok)
        fun sk _ => .ite (fun _ => ?_) fun _ => .ok
      exact .bind (hs.mono (by simp)) fun _ _ => .ite (fun _ => .err hz) fun _ => .ok

theorem errs_cut {E : List Err} {s : Settings} {x : Str} {f l : Bool} (hE : ∀ e ∈ spelledErrs, e ∈ E) (hne : x ≠ [])
    (hlet : ∀ c ∈ x, Vowel c ∨ Consonant c ∨ c = '\'') (hr : .index ∈ E ∨ (s.yHyphens ≠ .forceY → ¬ LateR x)) :
    Errs E (rafsiListShort (program .linked) s f l x) := by
  have hn : Err.noLujvo ∈ E := hE _ (by simp [spelledErrs])
  have hlet' : ∀ c ∈ x ++ s%"a", Vowel c ∨ Consonant c ∨ c = '\'' := by
    intro c hc
    rcases List.mem_append.1 hc with h | h
    · exact hlet c h
    · simp at h; subst h; left; decide
  obtain ⟨os, hos⟩ := getRafsiForRafsi_of (t := .shortBrivla) (f := f) (l := l) (co := s.consonants) (g := s.glides) hne (by simp) (by simp)
  obtain ⟨l', hl'⟩ := idxLast_of_ne hne
  unfold rafsiListShort
  rw [hl', hos]
  refine .bind ?_ fun ⟨t, _⟩ _ => .ite (fun _ => .err hn) fun _ => .bind .ok fun _ _ => .ite (fun _ => ?_) fun _ => .ok
  · unfold catchNotBrivla
    rcases analyse_of (s := { yHyphens := s.yHyphens, expRafsi := s.expRafsi, allowMz := s.allowMz }) (x := x ++ s%"a") (by simp) hlet' with
      ⟨t, ps, h⟩ | h
    · rw [h]; exact .ok
    · rw [h]; exact .err hn
  · have hy : 'y' ∉ x := letters_noY hlet
    have hE : Errs (.index :: caughtErrs) (jvokaha2 s.yHyphens s.allowMz x) := index_cut fun _ => slice_no_y hy
    cases hj : jvokaha2 s.yHyphens s.allowMz x with
    | ok ps => exact .err hn
    | error er =>
      have := hE er hj
      simp [caughtErrs] at this
      rcases this with rfl | rfl | rfl
      · rcases hr with hr | hr
        · exact .err hr
        · exact absurd hj (jvokaha2_index fun h1 h2 => hr h1 (lateR_of h2 hy))
      · exact .ok
      · exact .ok

theorem errs_kind {E : List Err} {s : Settings} {x : Str} (hE : ∀ e ∈ spelledErrs, e ∈ E) (hne : x ≠ []) (hq : x.getLast? ≠ some '\'')
    (hlet : ∀ c ∈ x, Vowel c ∨ Consonant c ∨ c = '\'') (hr : .index ∈ E ∨ (s.yHyphens ≠ .forceY → ¬ LateR x)) :
    Errs E (rafsiKind (program .linked) s x) := by
  have hn : Err.noLujvo ∈ E := hE _ (by simp [spelledErrs])
  have hz : Err.notZihevla ∈ E := hE _ (by simp [spelledErrs])
  have hy : 'y' ∉ x := letters_noY hlet
  unfold rafsiKind
  rcases analyse_of (s := { yHyphens := s.yHyphens, expRafsi := s.expRafsi, allowMz := s.allowMz }) hne hlet with ⟨t, ps, h⟩ | h
  · rw [h]; exact .ite (fun _ => .ok) fun _ => .err hz
  · rw [h]
    refine .ite (fun _ => ?_) fun _ => .err hz
    have hl : ∃ c, x.getLast? = some c ∧ (Vowel c ∨ Consonant c) := by
      cases hl : x.getLast? with
      | none => simp at hl; exact absurd hl hne
      | some c =>
        refine ⟨c, rfl, ?_⟩
        rcases hlet c (getLast_mem hl) with h | h | h
        · exact .inl h
        · exact .inr h
        · subst h; exact absurd hl hq
    have hd : ∀ j, 0 < j → j < x.length → ∀ s, Errs [.notBrivla] ((program .linked).analyse s (x.drop j)) := fun j h1 h2 s =>
      clean_program (by
        intro h
        have := congrArg List.length h
        simp at this; omega) (fun h => hy (List.mem_of_mem_drop h)) (fun d hd => letters_stable hlet d (List.mem_of_mem_drop hd))
    have hc : Errs (.notZihevla :: E) (checkZihevlaOrRafsi (program .linked) false s.yHyphens s.expRafsi s.allowMz x) := by
      rcases hr with hr | hr
      · exact (errs_checkZihevla_index hne hl hd).mono (by simp [hr])
      · exact (clean_checkZihevlaOrRafsi hne (slinkuhi_clean hl fun h1 h2 => hr h1 (lateR_of h2 hy)) hd).mono (by simp)
    split
    · exact .ok
    · exact .err hz
    · exact .err hn
    · rename_i e he h
      rcases List.mem_cons.1 (hc e h) with rfl | h
      · exact absurd rfl he
      · exact .err h

theorem errs_dashed {E : List Err} {s : Settings} {x : Str} {f l : Bool} (hE : ∀ e ∈ spelledErrs, e ∈ E) (hne : x ≠ []) (hq : x.getLast? ≠ some '\'')
    (hlet : ∀ c ∈ x, Vowel c ∨ Consonant c ∨ c = '\'') (hr : .index ∈ E ∨ (s.yHyphens ≠ .forceY → ¬ LateR x)) :
    Errs E (rafsiListRafsi (program .linked) s f l x) := by
  unfold rafsiListRafsi
  refine .ite (fun _ => .bind (errs_kind hE hne hq hlet hr) fun t ht => ?_) fun ho => .ite (fun _ => .err (hE _ (by simp [spelledErrs]))) fun hv => ?_
  · obtain ⟨os, h⟩ := getRafsiForRafsi_of (t := t) (f := f) (l := l) (co := s.consonants) (g := s.glides) hne
      (by rcases rafsiKind_type ht with rfl | rfl <;> simp) (by rcases rafsiKind_type ht with rfl | rfl <;> simp)
    rw [h]; exact .ok
  · obtain ⟨os, h⟩ := getRafsiForRafsi_of (t := .tarmi (rafsiTarmi x)) (f := f) (l := l) (co := s.consonants) (g := s.glides) hne
      (by
        intro h
        simp only [RType.tarmi.injEq] at h
        apply hv
        unfold isValidRafsi
        rw [h]
        rfl) (by simpa using ho)
    rw [h]; exact .ok

theorem strip_split (v : Str) : ∃ i j, v = List.replicate i '-' ++ stripBoth (· == '-') v ++ List.replicate j '-' := by
  have key : ∀ u : Str, ∃ i, u = List.replicate i '-' ++ u.dropWhile (· == '-') := by
    intro u
    induction u with
    | nil => exact ⟨0, rfl⟩
    | cons c u ih =>
      by_cases hc : c = '-'
      · subst hc
        obtain ⟨i, hi⟩ := ih
        refine ⟨i + 1, ?_⟩
        rw [List.dropWhile_cons_of_pos (by simp), List.replicate_succ, List.cons_append, ← hi]
      · exact ⟨0, by rw [List.dropWhile_cons_of_neg (by simpa using hc)]; rfl⟩
  obtain ⟨i, hi⟩ := key v
  obtain ⟨j, hj⟩ := key (v.dropWhile (· == '-')).reverse
  refine ⟨i, j, ?_⟩
  have := congrArg List.reverse hj
  rw [List.reverse_reverse, List.reverse_append, List.reverse_replicate] at this
  rw [List.append_assoc]
  unfold stripBoth
  rw [← this]
  exact hi

theorem word_of {s : Settings} {f l : Bool} {v : Str} (hne : v ≠ []) (hd : '-' ∉ v) (hlet : ∀ c ∈ v, Vowel c ∨ Consonant c ∨ c = '\'') :
    ∃ os, rafsiListFor (program .linked) s f l v = .ok os := by
  unfold rafsiListFor
  obtain ⟨c, hc⟩ := idxLast_of_ne hne
  rw [hc, ok_bind, if_neg ?_]
  · exact rafsiListWord_of hne hlet
  · rintro rfl
    exact hd (getLast_mem (idxLast_ok hc))

theorem word_foreign {s : Settings} {f l : Bool} {v : Str} (hd : '-' ∉ v) (hlet : ∃ c ∈ v, ¬ (Vowel c ∨ Consonant c ∨ c = '\'')) :
    rafsiListFor (program .linked) s f l v = .error .nonLojban := by
  obtain ⟨d, hdm, hdl⟩ := hlet
  unfold rafsiListFor
  obtain ⟨c, hc⟩ := idxLast_of_ne (v := v) (by rintro rfl; cases hdm)
  rw [hc, ok_bind, if_neg ?_]
  · unfold rafsiListWord
    rw [if_pos]
    cases h : isOnlyLojban v with
    | false => rfl
    | true => exact absurd (isOnlyLojban_letters h d hdm) hdl
  · rintro rfl
    exact hd (getLast_mem (idxLast_ok hc))

theorem errs_component {E : List Err} {s : Settings} {f l : Bool} {v : Str} (hE : ∀ e ∈ spelledErrs, e ∈ E) (hvne : v ≠ [])
    (hr : .index ∈ E ∨ (s.yHyphens ≠ .forceY → ¬ DashedR v)) :
    Errs E (rafsiListFor (program .linked) s f l v) := by
  have hn : Err.nonLojban ∈ E := hE _ (by simp [spelledErrs])
  unfold rafsiListFor
  obtain ⟨c, hc⟩ := idxLast_of_ne hvne
  rw [hc, ok_bind]
  refine .ite (fun hcd => ?_) fun hcd => ?_
  · subst hcd
    obtain ⟨d, hd⟩ : ∃ d, idx v 0 = .ok d := by
      cases v with
      | nil => exact absurd rfl hvne
      | cons d v => exact ⟨d, rfl⟩
    rw [hd, ok_bind]
    dsimp only
    refine .ite (fun _ => .err hn) fun ho => ?_
    have ho : isOnlyLojban (stripBoth (· == '-') v) = true := by simpa using ho
    have hlet := isOnlyLojban_letters ho
    have hne : stripBoth (· == '-') v ≠ [] := by intro h; rw [h] at ho; cases ho
    obtain ⟨l', hl'⟩ := idxLast_of_ne hne
    rw [hl', ok_bind]
    refine .ite (fun _ => .err hn) fun hq => ?_
    have hq' : (stripBoth (· == '-') v).getLast? ≠ some '\'' := by
      rw [idxLast_ok hl']; simpa using hq
    have hr' : .index ∈ E ∨ (s.yHyphens ≠ .forceY → ¬ LateR (stripBoth (· == '-') v)) := by
      refine hr.imp_right fun hr h1 h2 => ?_
      obtain ⟨i, j, e⟩ := strip_split v
      cases j with
      | succ j => exact hr h1 ⟨_, i, j, e, h2⟩
      | zero =>
        have h3 := idxLast_ok hc
        rw [e, List.replicate_zero, List.append_nil, List.getLast?_append, idxLast_ok hl', Option.some_or] at h3
        cases h3
        exact letters_no_dash hlet (getLast_mem (idxLast_ok hl'))
    exact .ite (fun _ => errs_cut hE hne hlet hr') fun _ => errs_dashed hE hne hq' hlet hr'
  · cases ho : isOnlyLojban v with
    | true =>
      obtain ⟨os, h⟩ := rafsiListWord_of (s := s) (f := f) (l := l) hvne (isOnlyLojban_letters ho)
      rw [h]
      exact .ok
    | false =>
      unfold rafsiListWord
      rw [ho]
      exact .err hn

/-- What a component makes the code raise. -/
theorem component_raises {s : Settings} {f l : Bool} {v : Str} {e : Err} (h : rafsiListFor (program .linked) s f l v = .error e) :
    e ∈ spelledErrs ∨ (e = .index ∧ (v = [] ∨ (s.yHyphens ≠ .forceY ∧ DashedR v))) := by
  by_cases hv : v = []
  · subst hv
    cases h
    exact .inr ⟨rfl, .inl rfl⟩
  by_cases he : e = .index
  · subst he
    refine .inr ⟨rfl, .inr (Classical.byContradiction fun hn => ?_)⟩
    have := errs_component (E := spelledErrs) (fun _ h => h) hv (.inr fun h1 h2 => hn ⟨h1, h2⟩) _ h
    simp [spelledErrs] at this
  · have := errs_component (E := .index :: spelledErrs) (fun _ h => List.mem_cons_of_mem _ h) hv (.inl (by simp)) _ h
    rcases List.mem_cons.1 this with h | h
    · exact absurd h he
    · exact .inl h

theorem components_raise {s : Settings} {n : Nat} {e : Err} : ∀ {vs : List Str} {i : Nat},
    rafsiListListFrom (program .linked) s n i vs = .error e →
    e ∈ spelledErrs ∨ (e = .index ∧ ([] ∈ vs ∨ (s.yHyphens ≠ .forceY ∧ ∃ v ∈ vs, DashedR v)))
  | [], i, h => by cases h
  | v :: vs, i, h => by
    unfold rafsiListListFrom at h
    rcases bind_fails h with h | ⟨a, -, h⟩
    · rcases component_raises h with h | ⟨h, h' | ⟨h1, h2⟩⟩
      · exact .inl h
      · exact .inr ⟨h, .inl (by simp [h'])⟩
      · exact .inr ⟨h, .inr ⟨h1, v, by simp, h2⟩⟩
    · rcases bind_fails h with h | ⟨b, -, h⟩
      · rcases components_raise h with h | ⟨h, h' | ⟨h1, u, hu, h2⟩⟩
        · exact .inl h
        · exact .inr ⟨h, .inl (by simp [h'])⟩
        · exact .inr ⟨h, .inr ⟨h1, u, by simp [hu], h2⟩⟩
      · cases h

theorem words_of {s : Settings} {n : Nat} : ∀ {vs : List Str} {i : Nat}, (∀ v ∈ vs, v ≠ [] ∧ '-' ∉ v) →
    ((∀ v ∈ vs, ∀ c ∈ v, Vowel c ∨ Consonant c ∨ c = '\'') → ∃ ll, rafsiListListFrom (program .linked) s n i vs = .ok ll) ∧
    ((∃ v ∈ vs, ∃ c ∈ v, ¬ (Vowel c ∨ Consonant c ∨ c = '\'')) → rafsiListListFrom (program .linked) s n i vs = .error .nonLojban)
  | [], i, _ => ⟨fun _ => ⟨[], rfl⟩, by rintro ⟨v, hv, -⟩; cases hv⟩
  | v :: vs, i, hs => by
    have h2 := words_of (s := s) (n := n) (vs := vs) (i := i + 1) (fun v hv => hs v (List.mem_cons_of_mem _ hv))
    obtain ⟨hne, hd⟩ := hs v (by simp)
    unfold rafsiListListFrom
    refine ⟨fun h => ?_, fun h => ?_⟩
    · obtain ⟨a, ha⟩ := word_of (s := s) (f := i == 0) (l := i + 1 == n) hne hd (h v (by simp))
      obtain ⟨b, hb⟩ := h2.1 fun v hv => h v (List.mem_cons_of_mem _ hv)
      rw [ha, ok_bind, hb, ok_bind]
      exact ⟨_, rfl⟩
    · by_cases hv : ∃ c ∈ v, ¬ (Vowel c ∨ Consonant c ∨ c = '\'')
      · rw [word_foreign hd hv, error_bind]
      · obtain ⟨a, ha⟩ := word_of (s := s) (f := i == 0) (l := i + 1 == n) hne hd (fun c hc =>
          Classical.byContradiction fun hn => hv ⟨c, hc, hn⟩)
        rw [ha, ok_bind, h2.2, error_bind]
        obtain ⟨u, hu, c, hc, hn⟩ := h
        rcases List.mem_cons.1 hu with rfl | hu
        · exact absurd ⟨c, hc, hn⟩ hv
        · exact ⟨u, hu, c, hc, hn⟩

/-- The rafsi of a component have a letter, whatever the component is. -/
theorem component_firm {s : Settings} {f l : Bool} {v x : Str} {k : Kind} {os : List RafsiOpt}
    (h : rafsiListFor (program .linked) s f l v = .ok os) (hu : Usable .linked s v x k) : Firm x := by
  unfold rafsiListFor at h
  obtain ⟨c, hc, h⟩ := bind_ok h
  have hc := idxLast_ok hc
  by_cases hcd : c = '-'
  · subst hcd
    rw [if_pos rfl] at h
    obtain ⟨d, hd, h⟩ := bind_ok h
    dsimp only at h
    split at h
    · cases h
    · rename_i ho
      have ho : isOnlyLojban (stripBoth (· == '-') v) = true := by simpa using ho
      obtain ⟨l', hl', h⟩ := bind_ok h
      split at h
      · cases h
      · rename_i hq
        have hf : Firm (stripBoth (· == '-') v) := by
          have hm := getLast_mem (idxLast_ok hl')
          rcases isOnlyLojban_letters ho l' hm with h | h | h
          · exact firm_of hm (.inl h)
          · exact firm_of hm (.inr h)
          · exact absurd h hq
        have hdash : ∀ {x : Str}, Dashed v x → Firm x := by
          rintro x ⟨h1, i', j', e'⟩
          rw [e', strip_dashes h1] at hf
          exact hf
        cases hu with
        | listed hl => exact absurd hc hl
        | stem hl => exact absurd hc hl
        | word hl => exact absurd hc hl
        | rafsi hd => exact hdash hd
        | zihevla hd => exact hdash hd
        | experimental hd => exact hdash hd
        | cut e' h1 =>
          rename_i j' _ _
          have := strip_dashes h1 0 (j' + 1)
          simp only [List.replicate_zero, List.nil_append] at this
          rw [e', this] at hf
          exact hf
  · rw [if_neg hcd] at h
    have hlet : ∀ c ∈ v, Vowel c ∨ Consonant c ∨ c = '\'' := by
      unfold rafsiListWord at h
      split at h
      · cases h
      · rename_i ho
        exact isOnlyLojban_letters (by simpa using ho)
    have hnl : v.getLast? ≠ some '-' := by rw [hc]; simpa using hcd
    cases hu with
    | listed _ h1 h2 _ => exact rafsi_firm (mz := false) (isValidRafsi_iff.1 (table_shapes _ h1 _ h2).2)
    | stem hl hw e' =>
      obtain ⟨ps, hw⟩ := hw
      have := (C03_gismu_iff.1 hw).2.1
      rw [reading_letters hlet, e'] at this
      exact rafsi_firm (gismu_cut this).1
    | word hl hw =>
      have key : ∀ t, t = .gismu ∨ t = .zihevla → WordType .linked s v t → Firm v := by
        rintro t ht ⟨ps, hw⟩
        obtain ⟨-, -, -, d, hd, hdv⟩ := analyse_clean (by rw [program_analyse]; exact hw) hlet ht
        exact firm_of (getLast_mem hd) (.inl hdv)
      rcases hw with hw | hw
      · exact key _ (.inl rfl) hw
      · exact key _ (.inr rfl) hw
    | rafsi hd => exact absurd hd.2 fun ⟨i', j', e'⟩ => hnl (by rw [e', List.getLast?_append]; simp [List.replicate_succ'])
    | zihevla hd => exact absurd hd.2 fun ⟨i', j', e'⟩ => hnl (by rw [e', List.getLast?_append]; simp [List.replicate_succ'])
    | experimental hd => exact absurd hd.2 fun ⟨i', j', e'⟩ => hnl (by rw [e', List.getLast?_append]; simp [List.replicate_succ'])
    | cut e' h1 => exact absurd (by rw [e', List.getLast?_append]; simp [List.replicate_succ']) hnl

theorem components_firm {s : Settings} {n : Nat} : ∀ {vs : List Str} {i : Nat} {ll : List (List RafsiOpt)},
    rafsiListListFrom (program .linked) s n i vs = .ok ll → ∀ l ∈ ll, ∀ r ∈ l, Firm r.1
  | [], i, ll, h => by cases h; simp
  | v :: vs, i, ll, h => by
    unfold rafsiListListFrom at h
    obtain ⟨a, ha, h⟩ := bind_ok h
    obtain ⟨b, hb, h⟩ := bind_ok h
    cases h
    intro l hl
    rcases List.mem_cons.1 hl with rfl | hl
    · intro r hr
      obtain ⟨z, hu, ⟨t, ht, -⟩, rfl⟩ := (rafsiListFor_iff ha).1 hr
      show Firm z.text
      rw [ht]
      exact (firm_right (component_firm ha hu)).append
    · exact components_firm hb l hl

/-- What the search raises after the rafsi of the components are known. -/
theorem errs_search {s : Settings} {g : Bool} {vs : List Str} {ll : List (List RafsiOpt)} (h2 : 2 ≤ vs.length)
    (hll : getRafsiListList (program .linked) s vs = .ok ll) : Errs [.noLujvo] (getLujvoFromList (program .linked) s g vs) := by
  intro e hres
  have hlen := rafsiListListFrom_length hll
  obtain ⟨best, hbest⟩ := total_searchStages (o := combineOpts s g) (ll := ll) (by omega) (components_firm hll)
  unfold getLujvoFromList at hres
  rw [hll, ok_bind, hbest, ok_bind] at hres
  split at hres
  · cases hres; simp
  · rename_i r hr
    cases g with
    | true => simp at hres
    | false =>
      obtain ⟨⟨zs', hy', -, hL', ew, -⟩, -⟩ := search_built hll hbest hr
      obtain ⟨l, hl, hv⟩ := hL'.ends
      obtain ⟨t, ht⟩ := slinkuhi_vowel (y := s.yHyphens) (mz := s.allowMz) (w := r.1) ⟨l, by rw [ew]; exact hl, by simpa using hv⟩
      simp only [Bool.not_false, if_true] at hres
      have : slinkuhiInJvozba (program .linked) s.yHyphens s.allowMz r.1 = .ok t := ht
      rw [this, ok_bind] at hres
      cases t with
      | true => cases hres; simp
      | false => cases hres

/-- With fewer than two components nothing is returned. -/
theorem one_component {s : Settings} {g : Bool} {vs : List Str} (h2 : vs.length < 2) {ll : List (List RafsiOpt)}
    (hll : getRafsiListList (program .linked) s vs = .ok ll) :
    getLujvoFromList (program .linked) s g vs = .error .index ∨ getLujvoFromList (program .linked) s g vs = .error .noLujvo := by
  have hlen := rafsiListListFrom_length hll
  unfold getLujvoFromList
  rw [hll, ok_bind]
  match ll, hlen with
  | [], _ => exact .inl rfl
  | [l0], _ =>
    unfold searchStages
    dsimp only
    split
    · exact .inr rfl
    · exact .inl rfl
  | _ :: _ :: _, hlen => simp at hlen; omega

theorem errs_spelled {s : Settings} {g : Bool} {vs : List Str} {e : Err} (h : getLujvoFromList (program .linked) s g vs = .error e) :
    e ∈ spelledErrs ∨ (e = .index ∧ (vs.length < 2 ∨ [] ∈ vs ∨ (s.yHyphens ≠ .forceY ∧ ∃ v ∈ vs, DashedR v))) := by
  cases hll : getRafsiListList (program .linked) s vs with
  | ok ll =>
    by_cases h2 : vs.length < 2
    · rcases one_component (g := g) h2 hll with h' | h' <;> rw [h] at h' <;> cases h'
      · exact .inr ⟨rfl, .inl h2⟩
      · exact .inl (by simp [spelledErrs])
    · have := errs_search (by omega) hll e h
      simp at this; subst this; simp [spelledErrs]
  | error e' =>
    have he : e = e' := by
      unfold getLujvoFromList at h
      rw [hll, error_bind] at h
      cases h; rfl
    subst he
    rcases components_raise hll with h | ⟨h1, h2⟩
    · exact .inl h
    · exact .inr ⟨h1, .inr h2⟩

end Jvotci
