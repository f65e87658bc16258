import Verif.Lemmas.JsCut

/-!
# The JavaScript search finds what the Python search finds
-/

namespace Jvotci

theorem jsApos {rafsi : Str} {isFirst : Bool} {r : Str} (h : apostrophise isFirst rafsi = .ok r) :
    (if !isFirst && jsIsVowel (jsAt rafsi 0) && !jsIsGlide rafsi then '\'' :: rafsi else rafsi) = r := by
  unfold apostrophise at h
  cases isFirst with
  | true =>
    simp only [if_true] at h
    cases h; rfl
  | false =>
    simp only [Bool.false_eq_true, if_false, idx] at h
    rw [jsIsVowel_at, jsIsGlide_eq]
    cases h0 : rafsi[0]? with
    | none => rw [h0] at h; cases h
    | some c =>
      rw [h0] at h
      simp only [bind, Except.bind] at h
      simp only [Bool.not_false, Bool.true_and]
      split at h <;> rename_i hc <;> cases h
      · rw [if_pos hc]
      · rw [if_neg hc]

theorem apostrophise_errs {rafsi : Str} {isFirst : Bool} {e : Err} (h : apostrophise isFirst rafsi = .error e) : e = .index := by
  unfold apostrophise at h
  cases isFirst with
  | true => cases h
  | false =>
    simp only [Bool.false_eq_true, if_false, idx] at h
    cases h0 : rafsi[0]? with
    | none => rw [h0] at h; cases h; rfl
    | some c =>
      rw [h0] at h
      simp only [bind, Except.bind] at h
      split at h <;> cases h

theorem ag_getRafsiForRafsi (rafsi : Str) (t : RType) (f l : Bool) (c : Consonants) (g : Bool) :
    Ag (getRafsiForRafsi rafsi t f l c g) (jsGetRafsiForRafsi rafsi t f l c g) := by
  unfold getRafsiForRafsi jsGetRafsiForRafsi
  refine Ag.bind_left (fun e he => apostrophise_errs he) fun r hr => ?_
  simp only [jsApos hr]
  split
  case h_1 | h_2 | h_3 =>
    refine Ag.ite Iff.rfl (fun _ => Ag.ok _) fun _ => Ag.bind_last fun q hq => ?_
    rw [jsLast_of hq, jsIsVowel_one]
    exact Ag.ite Iff.rfl (fun _ => Ag.ok _) fun _ => Ag.ok _
  case h_4 | h_5 | h_6 => exact Ag.ite Iff.rfl (fun _ => Ag.ok _) fun _ => Ag.ok _
  case h_7 =>
    rw [jsIsConsonant_at, jsIsGlide_eq]
    by_cases hc : c ≠ .cluster
    · rw [if_pos hc]
      simp only [idx]
      cases h0 : r[0]? with
      | none => exact Ag.index
      | some q =>
        simp only [bind, Except.bind]
        by_cases hq : (isConsonant q || (g && isGlide r)) = true
        · simp only [if_pos hq, if_pos (And.intro hc hq)]
          exact Ag.ite Iff.rfl (fun _ => Ag.ok _) fun _ => Ag.ite Iff.rfl (fun _ => Ag.ok _) fun _ => Ag.ok _
        · simp only [if_neg hq, if_neg (show ¬ (c ≠ .cluster ∧ (isConsonant q || g && isGlide r) = true) from fun h => hq h.2)]
          exact Ag.ite Iff.rfl (fun _ => Ag.ok _) fun _ => Ag.ite Iff.rfl (fun _ => Ag.ok _) fun _ => Ag.ok _
    · simp only [if_neg hc, show ∀ b : Prop, (c ≠ .cluster ∧ b) = False from fun b => propext ⟨fun h => hc h.1, False.elim⟩, if_false]
      exact Ag.ite Iff.rfl (fun _ => Ag.ok _) fun _ => Ag.ite Iff.rfl (fun _ => Ag.ok _) fun _ => Ag.ok _
  case h_8 | h_9 =>
    exact Ag.ite Iff.rfl (fun _ => Ag.ok _) fun _ => Ag.ite Iff.rfl (fun _ => Ag.ok _) fun _ => Ag.ok _
  case h_10 => exact Ag.ok _
  case h_11 => exact Ag.ite Iff.rfl (fun _ => Ag.ok _) fun _ => Ag.ok _
  case h_12 | h_13 => exact Ag.err .assertion

/-! ## Putting rafsi together -/

theorem jsChooseHyphen_eq {o : CombineOpts} {lujvo rafsi : Str} {last first : Char} {t : Tarmi} (hl : lujvo.getLast? = some last)
    (hf : rafsi.head? = some first) : jsChooseHyphen o lujvo rafsi t = chooseHyphen o lujvo last first t := by
  obtain ⟨rs, rfl⟩ : ∃ rs, rafsi = first :: rs := by
    cases rafsi with
    | nil => cases hf
    | cons a rs => cases hf; exact ⟨rs, rfl⟩
  unfold jsChooseHyphen chooseHyphen
  simp only [jsLast_of hl, jsAt_cons_zero, jsRafsiTarmi_eq, jsTarmiIgnoringHyphen_eq, Option.some.injEq, List.cons.injEq, and_true]

theorem chooseHyphen_mem {o : CombineOpts} {lujvo : Str} {last first : Char} {t : Tarmi} {h : Str}
    (hh : chooseHyphen o lujvo last first t = some h) : h ∈ [[], s%"y", s%"'y", s%"n", s%"r"] := by
  unfold chooseHyphen at hh
  simp only at hh
  repeat' split at hh
  all_goals first
    | cases hh; simp; done
    | (cases hh)
    | (simp only [Option.some.injEq] at hh; subst hh; simp; done)

theorem jsNextTos_eq {tos : Tos} {lujvo rafsi : Str} {last first : Char} {t : Tarmi} (hl : lujvo.getLast? = some last)
    (hf : rafsi.head? = some first) : jsNextTos tos lujvo rafsi t = nextTos tos rafsi last first t := by
  obtain ⟨rs, rfl⟩ : ∃ rs, rafsi = first :: rs := by
    cases rafsi with
    | nil => cases hf
    | cons a rs => cases hf; exact ⟨rs, rfl⟩
  unfold jsNextTos nextTos
  have hy : (jsLast (first :: rs) = some s%"y") = ((first :: rs).getLast? = some 'y') := propext jsLast_eq
  simp only [jsLast_of hl, jsAt_cons_zero, jsContainsConsonant_eq, Option.getD_some, List.cons_append, List.nil_append, hy]
  cases tos with
  | tosmabru => rfl
  | tosynone => rfl
  | tosyhuhu =>
    simp

theorem jsNewConsonants_ok {o : CombineOpts} {lujvo rafsi h : Str} {n m : Nat} (hh : h ∈ [[], s%"y", s%"'y", s%"n", s%"r"])
    (hn : newConsonants o lujvo rafsi h n = .ok m) : jsNewConsonants o lujvo rafsi h n = m := by
  have h1 : (decide (h.length > 0) && jsIncludes s%"nr" (some h)) = decide (h = s%"n" ∨ h = s%"r") := by
    simp only [List.mem_cons, List.not_mem_nil, or_false] at hh
    rcases hh with rfl | rfl | rfl | rfl | rfl <;> decide
  have h2 : (fun c : Char => jsIncludes s%"'y" (some [c])) = isHyphenLetter := by
    funext c
    rw [jsIncludes_one]
    simp [isHyphenLetter, BEq.beq]
  unfold newConsonants at hn
  unfold jsNewConsonants
  rw [h1, h2]
  simp only [decide_eq_true_eq]
  split at hn
  · rename_i hc; rw [if_pos hc]; cases hn; rfl
  rename_i hc
  rw [if_neg hc]
  split at hn
  · rename_i hcl
    rw [if_pos hcl]
    split at hn
    · rename_i h2'
      rw [if_pos h2']
      split at hn
      · rename_i l ls r rs hl hr
        simp only [hl, hr, jsAt_cons_zero, List.head?_cons, Option.map_some, jsIsConsonant_one, jsIsGlide_eq]
        split at hn
        · rename_i hx; rw [if_pos hx]; cases hn; rfl
        · rename_i hx; rw [if_neg hx]; cases hn; rfl
      · cases hn
    · rename_i h2'
      rw [if_neg h2']; cases hn; rfl
  · rename_i hcl
    rw [if_neg hcl]; cases hn; rfl

/-- What the search puts after the first rafsi: it has a letter other than vowels and apostrophes, and what follows an
apostrophe at its start is no rafsi shape. -/
structure Later (rafsi : Str) : Prop where
  letter : rafsi.all (fun c => (s%"aeiou'").contains c) = false
  apostrophe : rafsi.head? = some '\'' → tarmiIgnoringHyphen rafsi = .other

theorem jsCombine_ok {o : CombineOpts} {o' : CombineOpts} {lujvo rafsi : Str} {lc rc : Nat} {sc : Int} {ix : List (Nat × Nat)}
    {tos : Tos} {r : Option Cand} (hrafsi : Later rafsi)
    (ho : o' = o ∨ (o.tanruLen ≠ 2 ∧ o'.tanruLen ≠ 2 ∧ o' = { o with tanruLen := o'.tanruLen }))
    (h : combine o lujvo rafsi lc rc sc ix tos = .ok r) : jsCombine o' lujvo rafsi lc rc sc ix tos = r := by
  have hch : ∀ a b t, chooseHyphen o' lujvo a b t = chooseHyphen o lujvo a b t := by
    intro a b t
    rcases ho with rfl | ⟨h1, h2, h3⟩
    · rfl
    · rw [h3]
      unfold chooseHyphen
      simp [h1, h2]
  have e1 : o'.allowMz = o.allowMz := by rcases ho with rfl | ⟨-, -, h3⟩; rfl; rw [h3]
  have e2 : o'.consonants = o.consonants := by rcases ho with rfl | ⟨-, -, h3⟩; rfl; rw [h3]
  have e3 : o'.glides = o.glides := by rcases ho with rfl | ⟨-, -, h3⟩; rfl; rw [h3]
  have hnc : ∀ a b n m, newConsonants o a b n m = newConsonants o' a b n m := by
    intro a b n m
    unfold newConsonants
    rw [e2, e3]
  unfold combine at h
  split at h
  · rename_i last first prev hl hf hp
    obtain ⟨rs, rfl⟩ : ∃ rs, rafsi = first :: rs := by
      cases rafsi with
      | nil => cases hf
      | cons a rs => cases hf; exact ⟨rs, rfl⟩
    have hvp : (if o'.allowMz = true then MZ_VALID else VALID) = validPairs o.allowMz := by rw [e1]; rfl
    have hyp : (¬ jsIncludes s%"y'" (some [last]) = true) ↔ (last ≠ 'y' ∧ last ≠ '\'') := by
      rw [jsIncludes_one]
      simp
    unfold jsCombine
    simp only [jsLast_of hl, jsAt_cons_zero, jsIsConsonant_one, Option.getD_some, List.cons_append, List.nil_append, hvp,
      jsTarmiIgnoringHyphen_eq, jsRafsiTarmi_eq, jsStripHyphens_eq, jsScore_eq, jsTiebreak_eq, jsIsGlide_eq, jsChooseHyphen_eq hl hf, jsNextTos_eq hl hf,
      hch, hrafsi.letter, e2, Bool.not_eq_true', and_false, false_and, Bool.false_eq_true, if_false, Option.some.injEq, List.cons.injEq, and_true]
    simp only at h
    split at h
    · rename_i hc; rw [if_pos hc]; cases h; rfl
    rename_i hc; rw [if_neg hc]
    have hap := hrafsi.apostrophe
    split at h
    · rename_i hc2
      have hother := hap (by rw [← hc2.2.2]; rfl)
      cases h
      split
      · rfl
      · rw [if_pos ⟨by simpa using hyp.2 ⟨hc2.1, hc2.2.1⟩, hother⟩]
    rename_i hc2
    split at h
    · rename_i hc3; rw [if_pos hc3]; cases h; rfl
    rename_i hc3; rw [if_neg hc3]
    split at h
    · rename_i hc4
      rw [if_pos ⟨by simpa using hyp.2 ⟨hc4.1, hc4.2.1⟩, hc4.2.2⟩]
      cases h; rfl
    rename_i hc4
    rw [if_neg (by
      rintro ⟨a, b⟩
      have := hyp.1 (by simpa using a)
      exact hc4 ⟨this.1, this.2, b⟩)]
    split at h
    · rename_i hc5
      obtain ⟨h5, -⟩ := hc5
      have : slice lujvo prev.1 prev.1 = [] := by simp [slice]
      rw [this] at h5
      exact absurd h5 (by decide)
    cases hh : chooseHyphen o lujvo last first (tarmiIgnoringHyphen (first :: rs)) with
    | none => rw [hh] at h; cases h; rfl
    | some hy =>
      rw [hh] at h
      simp only at h ⊢
      cases ht : nextTos tos (first :: rs) last first (tarmiIgnoringHyphen (first :: rs)) with
      | none => rw [ht] at h; cases h; rfl
      | some t' =>
        rw [ht] at h
        simp only at h ⊢
        cases hn : newConsonants o lujvo (first :: rs) hy rc with
        | error e => rw [hn] at h; cases h
        | ok m =>
          rw [hn] at h
          rw [hnc] at hn
          rw [jsNewConsonants_ok (chooseHyphen_mem hh) hn]
          cases h
          rfl
  · cases h

theorem jsUpdate_ok {c : Option Cand} {b b' : Best} (h : updateCurrentBest c b = .ok b') : jsUpdateCurrentBest c b = b' := by
  unfold updateCurrentBest at h
  unfold jsUpdateCurrentBest
  cases c with
  | none => cases h; rfl
  | some c =>
    simp only [idxLast] at h ⊢
    cases hl : c.lujvo.getLast? with
    | none => rw [hl] at h; cases h
    | some l => rw [hl] at h; cases h; rfl

theorem foldl_of_foldlM {α β : Type} {f : β → α → Except Err β} {g : β → α → β} :
    ∀ {l : List α} {b r : β}, (∀ b, ∀ a ∈ l, ∀ x, f b a = .ok x → g b a = x) → l.foldlM f b = .ok r → l.foldl g b = r := by
  intro l
  induction l with
  | nil => intro b r _ h; cases h; rfl
  | cons a l ih =>
    intro b r hf h
    rw [List.foldlM_cons] at h
    cases hx : f b a with
    | error e => rw [hx] at h; cases h
    | ok x =>
      rw [hx] at h
      rw [List.foldl_cons, hf b a (List.mem_cons_self ..) x hx]
      exact ih (fun b a ha => hf b a (List.mem_cons_of_mem _ ha)) h

theorem foldlM_errs_index {α β : Type} {f : β → α → Except Err β} : ∀ {l : List α} {b : β} {e : Err},
    (∀ b, ∀ a ∈ l, ∀ e, f b a = .error e → e = .index) → l.foldlM f b = .error e → e = .index := by
  intro l
  induction l with
  | nil => intro b e _ h; cases h
  | cons a l ih =>
    intro b e hf h
    rw [List.foldlM_cons] at h
    cases hx : f b a with
    | error e' => rw [hx] at h; cases h; exact hf b a (List.mem_cons_self ..) _ hx
    | ok x =>
      rw [hx] at h
      exact ih (fun b a ha => hf b a (List.mem_cons_of_mem _ ha)) h

theorem newConsonants_errs_index {o : CombineOpts} {a b c : Str} {n : Nat} {e : Err} (h : newConsonants o a b c n = .error e) : e = .index := by
  unfold newConsonants at h
  repeat' split at h
  all_goals cases h
  rfl

theorem combine_errs_index {o : CombineOpts} {a b : Str} {m n : Nat} {sc : Int} {ix : List (Nat × Nat)} {tos : Tos} {e : Err}
    (h : combine o a b m n sc ix tos = .error e) : e = .index := by
  unfold combine at h
  simp only at h
  split at h
  · repeat' split at h
    all_goals try cases h
    all_goals
      revert h
      simp only [bind, Except.bind]
      split
      · rename_i e' he'
        intro h; cases h
        exact newConsonants_errs_index he'
      · intro h; cases h
  · cases h; rfl

theorem update_errs_index {c : Option Cand} {b : Best} {e : Err} (h : updateCurrentBest c b = .error e) : e = .index := by
  unfold updateCurrentBest idxLast at h
  cases c with
  | none => cases h
  | some c =>
    simp only at h
    cases hl : c.lujvo.getLast? with
    | none => rw [hl] at h; cases h; rfl
    | some l => rw [hl] at h; cases h

theorem step_errs_index {o : CombineOpts} {a b : Str} {m n : Nat} {sc : Int} {ix : List (Nat × Nat)} {tos : Tos} {best : Best} {e : Err}
    (h : (do
      let c ← combine o a b m n sc ix tos
      updateCurrentBest c best) = .error e) : e = .index := by
  cases hc : combine o a b m n sc ix tos with
  | error e' => rw [hc] at h; cases h; exact combine_errs_index hc
  | ok c => rw [hc] at h; exact update_errs_index h

theorem step_ok {o o' : CombineOpts} {a b : Str} {m n : Nat} {sc : Int} {ix : List (Nat × Nat)} {tos : Tos} {best best' : Best}
    (hb : Later b) (ho : o' = o ∨ (o.tanruLen ≠ 2 ∧ o'.tanruLen ≠ 2 ∧ o' = { o with tanruLen := o'.tanruLen }))
    (h : (do
      let c ← combine o a b m n sc ix tos
      updateCurrentBest c best) = .ok best') : jsUpdateCurrentBest (jsCombine o' a b m n sc ix tos) best = best' := by
  cases hc : combine o a b m n sc ix tos with
  | error e' => rw [hc] at h; cases h
  | ok c =>
    rw [hc] at h
    rw [jsCombine_ok hb ho hc]
    exact jsUpdate_ok h

theorem jsInitialTos_eq (g : Bool) (r : Str) : jsInitialTos g r = initialTos g r := by
  unfold jsInitialTos initialTos
  have hy : (jsLast r = some s%"y") = (r.getLast? = some 'y') := propext jsLast_eq
  rw [jsTarmiIgnoringHyphen_eq]
  simp only [hy]
  by_cases h : tarmiIgnoringHyphen r = .cvc <;> cases g <;> simp [h]

theorem jsFirstStage_ok {o : CombineOpts} {l0 l1 : List RafsiOpt} {b : Best} (hl : ∀ r ∈ l1, Later r.1) (h : firstStage o l0 l1 = .ok b) :
    jsFirstStage o l0 l1 = b := by
  unfold firstStage at h
  unfold jsFirstStage
  refine foldl_of_foldlM (fun b r0 _ x hx => ?_) h
  refine foldl_of_foldlM (fun b r1 h1 x hx => ?_) hx
  rw [jsScore_eq, jsStripHyphens_eq, jsInitialTos_eq]
  exact step_ok (hl r1 h1) (.inl rfl) hx

theorem jsNextStage_ok {o o' : CombineOpts} {prev : Best} {l : List RafsiOpt} {b : Best} (hl : ∀ r ∈ l, Later r.1)
    (ho : o' = o ∨ (o.tanruLen ≠ 2 ∧ o'.tanruLen ≠ 2 ∧ o' = { o with tanruLen := o'.tanruLen }))
    (h : nextStage o prev l = .ok b) : jsNextStage o' prev l = b := by
  unfold nextStage at h
  unfold jsNextStage
  refine foldl_of_foldlM (fun b r hr x hx => ?_) h
  refine foldl_of_foldlM (fun b t _ x hx => ?_) hx
  refine foldl_of_foldlM (fun b n _ x hx => ?_) hx
  refine foldl_of_foldlM (fun b e _ x hx => ?_) hx
  exact step_ok (hl r hr) ho hx

/-- The search, when every rafsi form after the first component's is as `Later` says. -/
theorem ag_searchStages {o : CombineOpts} {ll : List (List RafsiOpt)} (h : ∀ l ∈ ll.tail, ∀ r ∈ l, Later r.1) :
    Ag (searchStages o ll) (jsSearchStages o ll) := by
  unfold searchStages jsSearchStages
  match ll, h with
  | [], _ => exact Ag.index
  | [l0], _ =>
    simp only
    cases l0 with
    | nil => exact Ag.ok _
    | cons a l => exact Ag.index
  | l0 :: l1 :: rest, h =>
    simp only [List.tail_cons] at h
    constructor
    · intro b hb
      simp only at hb ⊢
      cases h1 : firstStage { o with tanruLen := (l0 :: l1 :: rest).length } l0 l1 with
      | error e => rw [h1] at hb; cases hb
      | ok b1 =>
        rw [h1] at hb
        rw [jsFirstStage_ok (h l1 (List.mem_cons_self ..)) h1]
        refine congrArg Except.ok (foldl_of_foldlM (fun b l hl x hx => ?_) hb)
        have : 0 < rest.length := List.length_pos_of_mem hl
        exact jsNextStage_ok (o := { o with tanruLen := 0 }) (o' := { o with tanruLen := (l0 :: l1 :: rest).length })
          (h l (List.mem_cons_of_mem _ hl)) (.inr ⟨by simp, by show (l0 :: l1 :: rest).length ≠ 2; simp only [List.length_cons]; omega, rfl⟩) hx
    · intro e he
      left
      simp only at he
      cases h1 : firstStage { o with tanruLen := (l0 :: l1 :: rest).length } l0 l1 with
      | error e' =>
        rw [h1] at he
        cases he
        unfold firstStage at h1
        refine foldlM_errs_index (fun b r0 _ e he => ?_) h1
        exact foldlM_errs_index (fun b r1 _ e he => step_errs_index he) he
      | ok b1 =>
        rw [h1] at he
        refine foldlM_errs_index (fun b l _ e he => ?_) he
        unfold nextStage at he
        refine foldlM_errs_index (fun b r _ e he => ?_) he
        refine foldlM_errs_index (fun b t _ e he => ?_) he
        refine foldlM_errs_index (fun b n _ e he => ?_) he
        exact foldlM_errs_index (fun b q _ e he => step_errs_index he) he

theorem jsPickBest_eq (g : Bool) (b : Best) : jsPickBest g b = pickBest g b := by
  unfold jsPickBest pickBest
  simp only [jsIsVowel_one, jsIsConsonant_one]

end Jvotci
