import Verif.Lemmas.Found
import Verif.Lemmas.GluedCm

/-!
# Made cmevla do not make the slinku'i test raise
-/

namespace Jvotci

open Spec

theorem takeHyphen_error {y : YHyphens} {l : Str} {res : List Str} {e : Err} (h : takeHyphen y l res = .error e) :
    l = ['r'] ∧ ∃ p t, res = p :: t ∧ p.length ≠ 1 := by
  unfold takeHyphen at h
  split at h
  · cases h
  · rename_i p t
    split at h
    · cases h
    · rename_i hp
      split at h
      · cases h
      · rename_i c cs
        split at h
        · cases h
        · rcases bind_fails h with h | ⟨rn, -, h⟩
          · split at h
            · split at h
              · cases h
              · split at h
                · rename_i hc
                  subst hc
                  cases cs with
                  | nil => exact ⟨rfl, p, t, rfl, hp⟩
                  | cons a cs =>
                    rename_i hx _
                    cases hx
                · cases h
            · cases h
          · split at h
            · cases h
            · split at h <;> cases h

theorem takeHyphen_head {y : YHyphens} {l : Str} {res res' : List Str} (h : res.head? = res'.head?) :
    takeHyphen y l res = takeHyphen y l res' := by
  cases res <;> cases res' <;> simp at h
  · rfl
  · subst h; rfl

theorem takeRafsi_original {mz : Bool} {o o' l : Str} (h : 'y' ∉ l) : takeRafsi mz o l = takeRafsi mz o' l := by
  have h3 : slice l 3 5 ≠ s%"'y" := by
    intro e
    have : 'y' ∈ slice l 3 5 := by rw [e]; decide
    exact h (List.mem_of_mem_take (List.mem_of_mem_drop this))
  unfold takeRafsi
  simp [h3]

theorem cuts_no_y {mz : Bool} {p rest : Str} (h : Cuts mz p rest) : 'y' ∉ p := by
  intro hm
  have := rafsi_letters h.rafsi _ hm
  revert this
  decide

/-- The loop goes on in the same way whatever stands before the last piece. -/
theorem loop_index {y : YHyphens} {mz : Bool} {o o' : Str} : ∀ {n n' : Nat} {l : Str} {res res' : List Str}, 'y' ∉ l → res.head? = res'.head? →
    l.length < n' → jvokaha2Loop y mz o n l res = .error .index → jvokaha2Loop y mz o' n' l res' = .error .index := by
  intro n
  induction n with
  | zero => intro n' l res res' _ _ _ h; cases h
  | succ n ih =>
    intro n' l res res' hy hh hn h
    obtain ⟨n', rfl⟩ : ∃ m, n' = m + 1 := ⟨n' - 1, by omega⟩
    unfold jvokaha2Loop at h ⊢
    split at h
    · cases h
    · rename_i hne
      rw [if_neg hne]
      rw [← takeHyphen_head hh]
      rcases bind_fails h with h | ⟨a, ha, h⟩
      · rw [h]
        rfl
      · rw [ha, ok_bind]
        cases a with
        | some hyp =>
          dsimp only at h ⊢
          have hl0 : 0 < hyp.length := by
            obtain ⟨p, ps, -, -, ⟨h, -⟩ | ⟨h, -⟩ | ⟨h, -⟩ | ⟨h, -⟩⟩ := takeHyphen_some ha <;> rw [h] <;> decide
          have : 0 < l.length := List.length_pos_iff.2 hne
          exact ih (res := hyp :: res) (fun hm => hy (List.mem_of_mem_drop hm)) rfl (by simp; omega) h
        | none =>
          dsimp only at h ⊢
          rw [takeRafsi_original (o' := o) hy]
          rcases bind_fails h with h | ⟨c, hc, h⟩
          · rw [h]
            rfl
          · rw [hc, ok_bind]
            rcases takeRafsi_ok hc with ⟨p, rest, e, hcut, rfl⟩ | ⟨p, rest, e, -⟩ | ⟨-, rfl⟩
            · dsimp only at h ⊢
              have : p ≠ [] := by
                obtain ⟨a, b, t, rfl, -⟩ := rafsi_double hcut.rafsi
                simp
              have := List.length_pos_iff.2 this
              refine ih (res := [p].reverse ++ res) (fun hm => hy (by rw [e]; simp [hm])) rfl ?_ h
              rw [e] at hn
              simp at hn
              omega
            · exact absurd (by rw [e]; simp) hy
            · cases h

/-- Behind the last y the loop does what it does on what stands there alone. -/
theorem loop_index_tail {y : YHyphens} {mz : Bool} {o x p : Str} {n : Nat} {r : List Str} (hy : 'y' ∉ x) (hr : x ≠ ['r'])
    (hp : p = s%"y" ∨ p = s%"'y") (h : jvokaha2Loop y mz o n x (p :: r) = .error .index) : jvokaha2 y mz x = .error .index := by
  cases n with
  | zero => cases h
  | succ n =>
    unfold jvokaha2
    unfold jvokaha2Loop at h ⊢
    split at h
    · cases h
    · rename_i hne
      rw [if_neg hne]
      rcases bind_fails h with h | ⟨a, ha, h⟩
      · exact absurd (takeHyphen_error h).1 hr
      · rw [show takeHyphen y x [] = .ok none from rfl, ok_bind]
        cases a with
        | some hyp =>
          exfalso
          obtain ⟨p', ps, e, h1, ⟨-, t, rfl⟩ | ⟨-, -, h, -⟩ | ⟨-, -, h, -⟩ | ⟨-, -, t, rfl⟩⟩ := takeHyphen_some ha
          · simp at hy
          · cases e
            rcases hp with rfl | rfl <;> revert h <;> decide
          · cases e
            rcases hp with rfl | rfl <;> revert h <;> decide
          · simp at hy
        | none =>
          dsimp only at h ⊢
          rw [takeRafsi_original (o' := o) hy]
          rcases bind_fails h with h | ⟨c, hc, h⟩
          · rw [h]
            rfl
          · rw [hc, ok_bind]
            rcases takeRafsi_ok hc with ⟨q, rest, e, hcut, rfl⟩ | ⟨q, rest, e, -⟩ | ⟨-, rfl⟩
            · dsimp only at h ⊢
              have : q ≠ [] := by
                obtain ⟨a, b, t, rfl, -⟩ := rafsi_double hcut.rafsi
                simp
              have := List.length_pos_iff.2 this
              refine loop_index (res := [q].reverse ++ (p :: r)) (fun hm => hy (by rw [e]; simp [hm])) rfl ?_ h
              rw [e]
              simp
              omega
            · exact absurd (by rw [e]; simp) hy
            · cases h

/-- The error is raised behind the last y. -/
theorem index_after_y {y : YHyphens} {mz : Bool} {o x : Str} (hy : 'y' ∉ x) (hr : x ≠ ['r']) : ∀ {n : Nat} {l u : Str} {res : List Str},
    l = u ++ 'y' :: x → jvokaha2Loop y mz o n l res = .error .index → jvokaha2 y mz x = .error .index := by
  intro n
  induction n with
  | zero => intro l u res _ h; cases h
  | succ n ih =>
    intro l u res e h
    unfold jvokaha2Loop at h
    split at h
    · cases h
    · rcases bind_fails h with h | ⟨a, ha, h⟩
      · exfalso
        have := (takeHyphen_error h).1
        rw [e] at this
        have hm : 'y' ∈ ['r'] := by rw [← this]; simp
        revert hm
        decide
      · cases a with
        | some hyp =>
          dsimp only at h
          obtain ⟨p, ps, -, -, ⟨rfl, t, rfl⟩ | ⟨rfl, -, -, t, rfl⟩ | ⟨rfl, -, -, c, t, rfl, -⟩ | ⟨rfl, -, t, rfl⟩⟩ := takeHyphen_some ha
          · cases u with
            | nil =>
              cases e
              exact loop_index_tail hy hr (.inl rfl) h
            | cons a u =>
              cases e
              exact ih rfl h
          · cases u with
            | nil => cases e
            | cons a u =>
              simp at e
              exact ih (u := u) (by simpa using e.2) h
          · cases u with
            | nil => cases e
            | cons a u =>
              simp at e
              exact ih (u := u) (by simpa using e.2) h
          · match u, e with
            | [a], e =>
              cases e
              exact loop_index_tail hy hr (.inr rfl) h
            | a :: b :: u, e =>
              cases e
              exact ih (u := u) (by simp) h
        | none =>
          dsimp only at h
          rcases bind_fails h with h | ⟨c, hc, h⟩
          · exact absurd (safe_takeRafsi _ h) (by decide)
          · rcases takeRafsi_ok hc with ⟨q, rest, e', hcut, rfl⟩ | ⟨q, rest, e', -, hcut, rfl⟩ | ⟨-, rfl⟩
            · dsimp only at h
              have hq := cuts_no_y hcut
              rw [e'] at e
              rcases List.append_eq_append_iff.1 e with ⟨v, e1, e2⟩ | ⟨v, e1, e2⟩
              · exact ih e2 h
              · cases v with
                | nil => exact ih (u := []) e2.symm h
                | cons a v =>
                  cases e2
                  exact absurd (by rw [e1]; simp) hq
            · dsimp only at h
              have hq := cuts_no_y hcut
              rw [e'] at e
              rcases List.append_eq_append_iff.1 e with ⟨v, e1, e2⟩ | ⟨v, e1, e2⟩
              · cases v with
                | nil =>
                  cases e2
                  exact loop_index_tail hy hr (.inl rfl) h
                | cons a v =>
                  cases e2
                  exact ih rfl h
              · cases v with
                | nil =>
                  cases e2
                  exact loop_index_tail hy hr (.inl rfl) h
                | cons a v =>
                  cases e2
                  exact absurd (by rw [e1]; simp) hq
            · cases h

/-- The slinku'i test raises only if the cutting into rafsi does. -/
theorem slinkuhi_ok {y : YHyphens} {mz : Bool} {w : Str} (hl : ∃ c, w.getLast? = some c ∧ (Vowel c ∨ Consonant c))
    (hr : jvokaha2 y mz (s%"to" ++ w) ≠ .error .index) : ∃ t, isSlinkuhi (program .linked) y mz w = .ok t := by
  unfold isSlinkuhi
  obtain ⟨c, hc, hv⟩ := hl
  cases w with
  | nil => cases hc
  | cons a w =>
    rw [show idx (a :: w) 0 = .ok a from rfl, ok_bind]
    split
    · exact ⟨_, rfl⟩
    · have hcut : Errs (.index :: caughtErrs) (jvokaha2 y mz (s%"to" ++ (a :: w))) := index_cut fun h => by
        exfalso
        obtain ⟨_, _, _, e, -, hb, -⟩ := tarmi_ccv.1 h
        simp [slice] at e
        rw [← e.2.1] at hb
        revert hb; decide
      have hcut : Errs caughtErrs (jvokaha2 y mz (s%"to" ++ (a :: w))) := by
        intro e he
        rcases List.mem_cons.1 (hcut e he) with rfl | h
        · exact absurd he hr
        · exact h
      have := jvokaha_caught (co := .cluster) (gl := false) (w := s%"to" ++ (a :: w)) (by rw [List.getLast?_append, hc]; rfl) hv hcut
      cases hk : jvokaha (program .linked) y .cluster false mz (s%"to" ++ (a :: w)) with
      | ok arr => exact ⟨_, rfl⟩
      | error e =>
        have := this e hk
        simp [caughtErrs] at this
        rcases this with rfl | rfl <;> exact ⟨_, rfl⟩

/-- A string that begins with a vowel or an apostrophe has no rafsi at its front. -/
theorem index_head {y : YHyphens} {mz : Bool} {o : Str} {n : Nat} {c : Char} {x : Str} {res : List Str} (hc : ¬ Consonant c)
    (hne : c :: x ≠ ['r']) (hhy : ∀ h, takeHyphen y (c :: x) res ≠ .ok (some h)) : jvokaha2Loop y mz o n (c :: x) res ≠ .error .index := by
  intro h
  cases n with
  | zero => cases h
  | succ n =>
    unfold jvokaha2Loop at h
    rw [if_neg (by simp)] at h
    rcases bind_fails h with h | ⟨a, ha, h⟩
    · exact hne (takeHyphen_error h).1
    · cases a with
      | some hyp => exact hhy _ ha
      | none =>
        dsimp only at h
        have hd : ∀ {p rest : Str}, Cuts mz p rest → ∀ t, c :: x ≠ p ++ t := by
          intro p rest hcut t e
          obtain ⟨a, b, v, rfl, -, hca⟩ := rafsi_double hcut.rafsi
          cases e
          exact hc hca
        rcases bind_fails h with h | ⟨c', hc', h⟩
        · exact absurd (safe_takeRafsi _ h) (by decide)
        · rcases takeRafsi_ok hc' with ⟨p, rest, e, hcut, -⟩ | ⟨p, rest, e, -, hcut, -⟩ | ⟨hcut, rfl⟩
          · exact hd hcut _ e
          · exact hd hcut _ e
          · cases h

theorem glued_head_shape {s : Settings} {f : Bool} {x g : Str} {l : List (Str × Str)} {p : YPart} {ps : List YPart}
    (h : Glued s f ((x, g) :: l) (p :: ps)) (hk : p.kind ≠ .zihevla) : shapeScore x ≠ 0 := by
  intro h0
  cases h with
  | last h => exact shape_rafsi h0 h
  | zlast => exact hk rfl
  | bare h => exact shape_rafsi h0 h
  | rn h => exact shape_rafsi h0 h
  | sep hq hc hp =>
    cases hq with
    | cvc h =>
      cases hp
      exact shape_rafsi h0 h
    | rafsi h =>
      dsimp only at hp
      subst hp
      obtain ⟨q, hq, hr⟩ := h.first
      cases hq
      exact shape_rafsi h0 hr
    | whole => exact hk rfl
    | cut => exact hk rfl

/-- Before a zi'evla stands a y. -/
theorem glued_gap_y {s : Settings} {f : Bool} {m : List (Str × Str)} {ps : List YPart} (h : Glued s f m ps) :
    ∀ {u : List (Str × Str)} {x g z g2 : Str} {t : List (Str × Str)}, m = u ++ (x, g) :: (z, g2) :: t → shapeScore z = 0 →
    ∃ pre, g = pre ++ s%"y" ∨ g = pre ++ s%"y'" := by
  induction h with
  | last => intro u x g z g2 t e; cases u <;> simp at e
  | zlast => intro u x g z g2 t e; cases u <;> simp at e
  | bare _ _ _ h hk ih =>
    intro u x g z g2 t e h0
    cases u with
    | nil =>
      cases e
      exact absurd h0 (glued_head_shape h hk)
    | cons a u => exact ih (List.cons.inj e).2 h0
  | rn _ _ _ _ _ _ h hk ih =>
    intro u x g z g2 t e h0
    cases u with
    | nil =>
      cases e
      exact absurd h0 (glued_head_shape h hk)
    | cons a u => exact ih (List.cons.inj e).2 h0
  | @sep f x0 x' g' l q p ps _ _ _ h ih =>
    intro u x g z g2 t e h0
    cases u with
    | nil =>
      cases e
      refine ⟨if q.trail then s%"'" else [], ?_⟩
      cases p.lead
      · left; simp
      · right; simp
    | cons a u => exact ih (List.cons.inj e).2 h0

theorem loneR_to {w : Str} (h : LoneR (s%"to" ++ w)) (hw : 3 ≤ w.length) : LoneR w := by
  obtain ⟨u, a, b, e, h⟩ := h
  match u, e with
  | [], e => have := congrArg List.length e; simp at this; omega
  | [_], e => have := congrArg List.length e; simp at this; omega
  | _ :: _ :: u, e =>
    simp at e
    exact ⟨u, a, b, e.2.2, h⟩

theorem loneR_tail {u x : Str} (h : LoneR (u ++ x)) (hx : 3 ≤ x.length) : LoneR x := by
  obtain ⟨v, a, b, e, h⟩ := h
  have hl := congrArg List.length e
  simp at hl
  refine ⟨x.take (x.length - 3), a, b, ?_, h⟩
  have h1 := congrArg (List.drop (u.length + x.length - 3)) e
  rw [List.drop_append, show u.length + x.length - 3 = v.length by omega, List.drop_left] at h1
  rw [List.drop_eq_nil_of_le (by omega), List.nil_append, show v.length - u.length = x.length - 3 by omega] at h1
  rw [← h1, List.take_append_drop]

/-- A rafsi has no r behind two vowels. -/
theorem rafsi_not_lone {mz : Bool} {x : Str} (h : Rafsi mz x) : ¬ LoneR x := by
  have hap : ¬ Consonant '\'' := by decide
  have hr : ¬ Vowel 'r' := by decide
  have hvc : ∀ c, Vowel c → ¬ Consonant c := fun _ => vowel_not_consonant
  have hpc : ∀ {c d}, PermissiblePair mz c d → ¬ Vowel c ∧ c ≠ 'y' := fun h =>
    ⟨fun h' => hvc _ h' h.1, by rintro rfl; exact absurd h.1 (by decide)⟩
  rintro ⟨u, a, b, e, h'⟩
  have e := congrArg List.reverse e
  simp only [List.reverse_append, List.reverse_cons, List.reverse_nil, List.nil_append, List.cons_append, List.singleton_append] at e
  have gis : ∀ {t : Str} {d : Char}, Vowel d → (t ++ [d]).reverse ≠ 'r' :: b :: a :: u.reverse := by
    intro t d hd e
    simp at e
    rw [e.1] at hd
    exact hr hd
  cases h with
  | cvv _ _ h => simp at e; rw [e.1] at h; exact hr h
  | cvhv _ _ h => simp at e; rw [e.1] at h; exact hr h
  | cvc h1 h2 =>
    simp at e
    obtain ⟨-, rfl, rfl, -⟩ := e
    rcases h' with ⟨-, h | h⟩ | ⟨h, -⟩
    · exact hvc _ h h1
    · rw [h] at h1; exact hap h1
    · rw [h] at h1; exact hap h1
  | ccv _ h => simp at e; rw [e.1] at h; exact hr h
  | cvcc _ _ h =>
    simp at e
    obtain ⟨-, rfl, -⟩ := e
    rcases h' with ⟨h1, -⟩ | ⟨-, h1⟩
    · exact (hpc h).1 h1
    · exact (hpc h).2 h1
  | ccvc h1 _ _ =>
    have h1 := (initial_consonants h1).2
    simp at e
    obtain ⟨-, -, rfl, -⟩ := e
    rcases h' with ⟨-, h | h⟩ | ⟨h, -⟩
    · exact hvc _ h h1
    · rw [h] at h1; exact hap h1
    · rw [h] at h1; exact hap h1
  | gismu h =>
    cases h with
    | cvccv _ _ _ h => simp at e; rw [e.1] at h; exact hr h
    | ccvcv _ _ _ h => simp at e; rw [e.1] at h; exact hr h

/-- Short strings do not make the cutting raise. -/
theorem index_short {y : YHyphens} {mz : Bool} {x : Str} {a b : Char} (h : Adjacent (x ++ s%"a") a b) (ha : Consonant a) (hb : Consonant b)
    (hy : 'y' ∉ x) (hl : x.length < 6) : jvokaha2 y mz x ≠ .error .index := by
  have hap : ¬ Consonant '\'' := by decide
  have haa : ¬ Consonant 'a' := by decide
  have hvc : ∀ c, Vowel c → ¬ Consonant c := fun _ => vowel_not_consonant
  intro hi
  have hlone : LoneR x := Classical.byContradiction fun hn => jvokaha2_index (fun _ => hn) hi
  obtain ⟨v, c, d, rfl, ⟨hd, hc⟩ | ⟨rfl, rfl⟩⟩ := hlone
  · have hcc : ¬ Consonant c := by
      rcases hc with hc | rfl
      · exact hvc _ hc
      · exact hap
    have hdd := hvc _ hd
    have hone : ¬ Adjacent s%"a" a b := by
      rintro ⟨u, v, e⟩
      have := congrArg List.length e
      simp at this
      omega
    simp at hl
    match v, hl with
    | [], _ =>
      simp only [List.nil_append, List.cons_append, adjacent_cons] at h
      rcases h with ⟨rfl, -⟩ | ⟨rfl, -⟩ | ⟨-, rfl⟩ | h
      · exact hcc ha
      · exact hdd ha
      · exact haa hb
      · exact hone h
    | [p], _ =>
      simp only [List.nil_append, List.cons_append, adjacent_cons] at h
      rcases h with ⟨-, rfl⟩ | ⟨rfl, -⟩ | ⟨rfl, -⟩ | ⟨-, rfl⟩ | h
      · exact hcc hb
      · exact hcc ha
      · exact hdd ha
      · exact haa hb
      · exact hone h
    | [p, q], _ =>
      simp only [List.nil_append, List.cons_append, adjacent_cons] at h
      rcases h with ⟨rfl, rfl⟩ | ⟨-, rfl⟩ | ⟨rfl, -⟩ | ⟨rfl, -⟩ | ⟨-, rfl⟩ | h
      · have h2 : ∀ {p rest t : Str}, Cuts mz p rest → [a, b, c, d, 'r'] = p ++ t → t = [d, 'r'] := by
          intro p rest t hcut e
          have := hcut.rafsi
          cases this with
          | cvv _ h => simp at e; rw [← e.2.1] at h; exact absurd hb (hvc _ h)
          | cvhv _ h => simp at e; rw [← e.2.1] at h; exact absurd hb (hvc _ h)
          | cvc _ h => simp at e; rw [← e.2.1] at h; exact absurd hb (hvc _ h)
          | ccv _ h => simp at e; exact e.2.2.2.symm
          | cvcc _ h => simp at e; rw [← e.2.1] at h; exact absurd hb (hvc _ h)
          | ccvc _ _ h => simp at e; rw [← e.2.2.2.1] at h; exact absurd h hdd
          | gismu h =>
            cases h with
            | cvccv _ h => simp at e; rw [← e.2.1] at h; exact absurd hb (hvc _ h)
            | ccvcv _ _ h => simp at e; rw [← e.2.2.2.1] at h; exact absurd h hdd
        unfold jvokaha2 jvokaha2Loop at hi
        rw [if_neg (by simp), show takeHyphen y ([a, b] ++ [c, d, 'r']) [] = .ok none from rfl, ok_bind] at hi
        dsimp only at hi
        rcases bind_fails hi with h | ⟨c', hc', h⟩
        · exact absurd (safe_takeRafsi _ h) (by decide)
        · rcases takeRafsi_ok hc' with ⟨p, rest, e, hcut, rfl⟩ | ⟨p, rest, e, -, hcut, -⟩ | ⟨hcut, rfl⟩
          · cases h2 hcut e
            refine index_head hdd (by simp) ?_ h
            intro hh ha
            obtain ⟨p, ps, -, -, ⟨-, t, e⟩ | ⟨-, -, -, t, e⟩ | ⟨-, -, -, c, t, e, -⟩ | ⟨-, -, t, e⟩⟩ := takeHyphen_some ha
            · cases e; revert hd; decide
            · cases e; revert hd; decide
            · cases e; revert hd; decide
            · cases e
          · have := h2 hcut e
            simp at this
            rw [← this.1] at hd
            revert hd
            decide
          · cases h
      · exact hcc hb
      · exact hcc ha
      · exact hdd ha
      · exact haa hb
      · exact hone h
  · exact hy (by simp)

/-- Every component got rafsi. -/
theorem list_each {R : Rec} {s : Settings} {n : Nat} : ∀ {vs : List Str} {i : Nat} {ll : List (List RafsiOpt)},
    rafsiListListFrom R s n i vs = .ok ll → ∀ v ∈ vs, ∃ f l os, rafsiListFor R s f l v = .ok os := by
  intro vs
  induction vs with
  | nil => intro i ll _ v hv; cases hv
  | cons w vs ih =>
    intro i ll h v hv
    unfold rafsiListListFrom at h
    obtain ⟨a, ha, h⟩ := bind_ok h
    obtain ⟨b, hb, -⟩ := bind_ok h
    rcases List.mem_cons.1 hv with rfl | hv
    · exact ⟨_, _, _, ha⟩
    · exact ih hb v hv

/-- The cutting does not raise on what is left of a component. -/
theorem found_no_index {s : Settings} {g : Bool} {vs : List Str} {r : Str × Int × List (Nat × Nat)} {v x : Str}
    (h : getLujvoFromList (program .linked) s g vs = .ok r) (hv : v ∈ vs) (hvr : ∀ d ∈ v, readChar d = [d]) (hu : Usable .linked s v x .short) (hz : ZCut s x) :
    jvokaha2 s.yHyphens s.allowMz x ≠ .error .index := by
  intro hi
  have hny : 'y' ∉ x := fun hm => by
    have := zcut_letters hz _ hm
    revert this
    decide
  obtain ⟨a, b, hab, ha, hb⟩ := form_pair hz.whole.form
  have h6 : 6 ≤ x.length := by
    refine Nat.le_of_not_lt fun hl => index_short hab ha hb hny hl hi
  have hlone : LoneR x := Classical.byContradiction fun hn => jvokaha2_index (fun _ => hn) hi
  have hlate : LateR x := by
    obtain ⟨u, a, b, rfl, h | h⟩ := hlone
    · exact ⟨u, a, b, rfl, h⟩
    · exact absurd (by rw [h.2]; simp) hny
  have hlast := loneR_last hlone
  have hsh : ∀ {mz}, ¬ Rafsi mz x := fun h => shape_rafsi (zcut_shape hz) h
  obtain ⟨ll, -, -, -, hll, -⟩ := getLujvoFromList_ok h
  obtain ⟨f, l, os, hos⟩ := list_each hll v hv
  cases hu with
  | listed _ h1 h2 => exact hsh (isValidRafsi_iff.1 (table_shapes _ h1 _ h2).2)
  | stem _ hg e =>
    obtain ⟨ps, hg⟩ := hg
    obtain ⟨-, hg, -⟩ := C03_gismu_iff.1 hg
    have h5 := gismu_length (isGismu_iff.2 hg)
    have hfl : ∀ {u : Str}, (∀ d ∈ u, readChar d = [d]) → (u.flatMap readChar).length = u.length := by
      intro u hu
      induction u with
      | nil => rfl
      | cons a u ih =>
        rw [List.flatMap_cons, hu a (by simp), List.length_append, ih fun d hd => hu d (by simp [hd])]
        simp
        omega
    have hvl : 7 ≤ v.length := by rw [e]; simp; omega
    have : v.length ≤ (reading v).length + 1 := by
      unfold reading
      split
      · rename_i cs
        rw [hfl fun d hd => hvr d (by simp [hd])]
        simp
      · rw [hfl hvr]
        omega
    omega
  | rafsi _ h => exact hsh h
  | cut e _ _ _ => exact past_not ⟨x, _, e, hlate, zcut_letters hz, h6, ⟨'r', hlast, by decide⟩, hi⟩ hos

/-- The slinku'i test does not raise on a cmevla put together of such parts. -/
theorem glued_no_index {s : Settings} {l u : List (Str × Str)} {z : Str} {k : Kind} {ps : List YPart} (h : Glued s true (withY l) ps)
    (el : l = u ++ [(z, [])]) (h2 : 2 ≤ l.length) (hend : ∃ c, (spell l).getLast? = some c ∧ Consonant c) (hz : UnitOf s z k)
    (hp : k = .short → ZCut s z → jvokaha2 s.yHyphens s.allowMz z ≠ .error .index) :
    isSlinkuhi (program .linked) s.yHyphens s.allowMz (spell l) ≠ .error .index := by
  intro hi
  obtain ⟨c, hc, hcc⟩ := hend
  have hj : jvokaha2 s.yHyphens s.allowMz (s%"to" ++ spell l) = .error .index := Classical.byContradiction fun hn => by
    obtain ⟨t, ht⟩ := slinkuhi_ok ⟨c, hc, .inr hcc⟩ hn
    rw [hi] at ht
    cases ht
  have hlone : LoneR (s%"to" ++ spell l) := Classical.byContradiction fun hn => jvokaha2_index (fun _ => hn) hj
  have hsp : spell l = spell u ++ z := by rw [el]; simp [spell]
  cases hz with
  | rafsi hr hd =>
    rw [hsp, ← List.append_assoc] at hlone
    exact rafsi_not_lone hr (loneR_tail hlone (rafsi_length hr).1)
  | whole hw =>
    obtain ⟨d, hd, hv⟩ := hw.form.vowel
    rw [hsp, List.getLast?_append, hd] at hc
    cases hc
    exact vowel_not_consonant hv hcc
  | cut hz =>
    have hny : 'y' ∉ z := fun hm => by
      have := zcut_letters hz _ hm
      revert this
      decide
    obtain ⟨v, x, g, rfl⟩ : ∃ v x g, u = v ++ [(x, g)] := by
      rcases List.eq_nil_or_concat u with rfl | ⟨v, ⟨x, g⟩, rfl⟩
      · rw [el] at h2; simp at h2
      · exact ⟨v, x, g, by simp⟩
    have hzr : z ≠ ['r'] := by
      rintro rfl
      have := form_long hz.whole.form
      simp at this
    rw [el, withY_snoc] at h
    obtain ⟨pre, hg⟩ := glued_gap_y h (u := v) (x := x) (g := g) (z := z) (g2 := s%"y") (t := [(s%"bai", [])]) (by simp) (zcut_shape hz)
    unfold jvokaha2 at hj
    rcases hg with rfl | rfl
    · refine hp rfl hz (index_after_y hny hzr (u := s%"to" ++ spell v ++ x ++ pre) ?_ hj)
      rw [hsp]
      simp [spell]
    · have := index_after_y (x := '\'' :: z) (by simp [hny]) (by simp) (u := s%"to" ++ spell v ++ x ++ pre) (by
        rw [hsp]
        simp [spell]) hj
      refine index_head (by decide) (by simp) ?_ this
      intro h e
      cases e

end Jvotci
