import Verif.Lemmas.Found
import Verif.Props.Relax

/-!
# Helper lemmas: a lujvo of a tanru is one under relaxed options
-/

namespace Jvotci

open Spec

theorem takeHyphen_same {y y' : YHyphens} {l : Str} {res : List Str} (hy : YSame y y') (hl : 'y' ∉ l) :
    takeHyphen y' l res = takeHyphen y l res := by
  rcases hy with rfl | ⟨h1, h2⟩
  · rfl
  · have h3 : slice l 0 2 ≠ s%"'y" := by
      intro e
      have : 'y' ∈ slice l 0 2 := by rw [e]; decide
      exact hl (List.mem_of_mem_take (List.mem_of_mem_drop this))
    unfold takeHyphen
    simp [h1, h2, h3]

theorem jvokaha2Loop_same {y y' : YHyphens} {mz : Bool} {o : Str} (hy : YSame y y') : ∀ {n : Nat} {l : Str} {res : List Str}, 'y' ∉ l →
    jvokaha2Loop y' mz o n l res = jvokaha2Loop y mz o n l res
  | 0, _, _, _ => rfl
  | n + 1, l, res, hl => by
    unfold jvokaha2Loop
    split
    · rfl
    rw [takeHyphen_same hy hl]
    cases takeHyphen y l res with
    | error e => rfl
    | ok r =>
      cases r with
      | some h =>
        rw [ok_bind, ok_bind]
        exact jvokaha2Loop_same hy fun h => hl (List.mem_of_mem_drop h)
      | none =>
        rw [ok_bind, ok_bind]
        dsimp only
        cases hr : takeRafsi mz o l with
        | error e => rfl
        | ok c =>
          rw [ok_bind, ok_bind]
          rcases takeRafsi_ok hr with ⟨p, rest, e, -, rfl⟩ | ⟨p, rest, e, -, -, rfl⟩ | ⟨-, rfl⟩
          · exact jvokaha2Loop_same hy fun h => hl (by rw [e]; simp [h])
          · exact absurd (by rw [e]; simp) hl
          · rfl

theorem jvokaha2_same {y y' : YHyphens} {mz : Bool} {x : Str} (hy : YSame y y') (hx : 'y' ∉ x) : jvokaha2 y' mz x = jvokaha2 y mz x :=
  jvokaha2Loop_same hy hx

theorem check_rafsi_same {y y' : YHyphens} {mz : Bool} {x : Str}
    (h : checkZihevlaOrRafsi (program .linked) false y true mz x = .ok .rafsi) :
    checkZihevlaOrRafsi (program .linked) false y' true mz x = .ok .rafsi := by
  unfold checkZihevlaOrRafsi at h ⊢
  rw [if_neg (by simp)] at h ⊢
  obtain ⟨st, hst, h⟩ := bind_ok h
  rw [hst, ok_bind]
  rw [if_neg (by simp)] at h ⊢
  cases hc : st.clusterPos with
  | none =>
    rw [hc] at h
    exact h
  | some p =>
    rw [hc] at h
    exfalso
    dsimp only at h
    obtain ⟨_, -, h⟩ := bind_ok h
    obtain ⟨c, -, h⟩ := bind_ok h
    obtain ⟨sk, -, h⟩ := bind_ok h
    split at h
    · obtain ⟨b, -, h⟩ := bind_ok h
      cases b <;> cases h
    · cases h

/-- An experimental rafsi is no word. -/
theorem experimental_no_word {s : Settings} {y : YHyphens} {ex mz : Bool} {x : Str} {t : BType} (hl : ∀ c ∈ x, Vowel c ∨ Consonant c ∨ c = '\'')
    (h : checkZihevlaOrRafsi (program .linked) false y ex mz x = .ok .rafsi) : ¬ WordType .linked s x t := by
  rintro ⟨ps, hw⟩
  have hc := checkZihevlaOrRafsi_consonant h
  have hy : 'y' ∉ x := letters_noY hl
  by_cases ht : t = .cmevla
  · subst ht
    rw [← reading_letters hl] at hy
    obtain ⟨e, hp⟩ := C42_only_cmevla hw hy
    have h6 := pieces_long hp.reading hp.two
    obtain ⟨c, hcl, hcc⟩ := hp.consonant
    rw [e, reading_letters hl] at h6 hcl
    refine hc c ?_ hcc
    cases x with
    | nil => simp at h6
    | cons a x =>
      cases x with
      | nil => simp at h6
      | cons b x =>
        rw [List.getLast?_cons_cons] at hcl
        exact List.mem_of_getLast? hcl
  · obtain ⟨a, b, ha, hb, u, v, e⟩ := C36_break_partial hw ht rfl
    rw [reading_letters hl] at e
    rcases hb with hb | rfl
    · refine hc b ?_ hb
      rw [e]; cases u <;> simp
    · exact hy (by rw [e]; simp)

theorem wordType_looser {s s' : Settings} {x : Str} {t : BType} (hs : Looser s s') (hlen : x.length < 10 ^ 91) (ht : t ≠ .cmevla)
    (h : WordType .linked s x t) : WordType .linked s' x t := by
  obtain ⟨ps, h⟩ := h
  exact ⟨ps, C52_brivla hlen (s := { yHyphens := s.yHyphens, expRafsi := s.expRafsi, allowMz := s.allowMz })
    ⟨hs.mz, hs.y, hs.exp, .inl rfl, id⟩ ht h⟩

theorem usable_looser {s s' : Settings} {v x : Str} {k : Kind} (hs : Looser s s') (hv : Spelled v) (hlen : v.length < 10 ^ 90)
    (h : Usable .linked s v x k) : Usable .linked s' v x k := by
  obtain ⟨y, i, j, e, -, hlet, hij, hq⟩ := hv
  have hnd := letters_no_dash hlet
  have hst : stripBoth (· == '-') v = y := by rw [e]; exact strip_dashes hnd i j
  have hyl : y.length ≤ v.length := by rw [e]; simp; omega
  have hdash : ∀ {x : Str}, Dashed v x → x = y := by
    rintro x ⟨h1, i', j', e'⟩
    rw [← hst, e']; exact (strip_dashes h1 _ _).symm
  cases h with
  | listed h1 h2 h3 h4 => exact .listed h1 h2 h3 h4
  | stem h1 h2 h3 => exact .stem h1 (wordType_looser hs (by omega) (by simp) h2) h3
  | word h1 h2 =>
    exact .word h1 (h2.imp (wordType_looser hs (by omega) (by simp)) (wordType_looser hs (by omega) (by simp)))
  | rafsi h1 h2 h3 => exact .rafsi h1 (by rw [hs.mz]; exact h2) h3
  | zihevla h1 h2 h3 =>
    cases hdash h1
    exact .zihevla h1 h2 (wordType_looser hs (by omega) (by simp) h3)
  | experimental h1 h2 h3 h4 h5 =>
    cases hdash h1
    have h6 := hs.exp h3
    refine .experimental h1 h2 h6 (fun t => experimental_no_word hlet h5) ?_
    rw [h6, hs.mz]
    rw [h3] at h5
    exact check_rafsi_same h5
  | cut h1 h2 h3 h4 =>
    rename_i j'
    have : x = y := by
      rw [← hst, h1]
      have := strip_dashes h2 0 (j' + 1)
      simpa using this.symm
    subst this
    have hl' : (x ++ s%"a").length < 10 ^ 91 := by simp; omega
    refine .cut h1 h2 (h3.imp (wordType_looser hs hl' (by simp)) (wordType_looser hs hl' (by simp))) ?_
    intro h5 h6 ps
    rw [hs.mz, jvokaha2_same hs.same (letters_noY hlet)]
    exact h4 h5 h6 ps

theorem represents_looser {s s' : Settings} {n : Nat} (hs : Looser s s') : ∀ {vs : List Str} {i : Nat} {zs : List Slot},
    (∀ v ∈ vs, Spelled v ∧ v.length < 10 ^ 90) → Represents .linked s n i vs zs → Represents .linked s' n i vs zs
  | _, _, _, _, .nil => .nil
  | _, _, _, hv, .cons hu hw h =>
    .cons (usable_looser hs (hv _ (by simp)).1 (hv _ (by simp)).2 hu) hw
      (represents_looser hs (fun v hm => hv v (List.mem_cons_of_mem _ hm)) h)

theorem slot_count_looser {s s' : Settings} (hs : Looser s s') (z : Slot) : z.count s ≤ z.count s' := by
  have hc := hs.consonants
  unfold Slot.count
  split
  · split
    · omega
    · rename_i h
      rw [if_neg]
      · exact Nat.le_refl _
      · intro h'
        rcases hc with hc | hc | hc
        · exact h (hc ▸ h')
        · exact h hc
        · rw [hc] at h'; cases h'
  · split
    · rename_i h
      rw [if_pos]
      · exact Nat.le_refl _
      · refine ⟨?_, h.2.imp id fun h => ⟨hs.glides h.1, h.2⟩⟩
        intro h'
        rcases hc with hc | hc | hc
        · exact h.1 (hc ▸ h')
        · exact h.1 hc
        · rw [hc] at h'; cases h'
    · omega
  · exact Nat.le_refl _

theorem slot_counts_looser {s s' : Settings} (hs : Looser s s') : ∀ zs : List Slot, (zs.map (Slot.count s)).sum ≤ (zs.map (Slot.count s')).sum
  | [] => Nat.le_refl _
  | z :: zs => by
    have := slot_count_looser hs z
    have := slot_counts_looser hs zs
    simp only [List.map_cons, List.sum_cons]
    omega

theorem legal_looser {s s' : Settings} {g : Bool} {zs : List Slot} {h : Str} (hs : Looser s s') (hL : Legal s g zs h) : Legal s' g zs h := by
  obtain ⟨⟨y, z, rest, e, hf⟩, h2, h3, h4, h5, h6⟩ := hL
  refine ⟨⟨y, z, rest, e, ?_⟩, by rw [hs.mz]; exact h2, h3, h4, ?_, h6⟩
  · rcases hf with ⟨h1, h2, h3⟩ | ⟨h1, h2, h3⟩
    · refine .inl ⟨h1, h2, h3.imp id fun h h' => h (hs.standard h')⟩
    · refine .inr ⟨h1, h2, ?_⟩
      have : s'.yHyphens = .forceY ↔ s.yHyphens = .forceY := by
        rcases hs.y with h | ⟨h, h'⟩
        · rw [h]
        · rw [h, h']; simp
      rw [h3]
      simp only [this]
  · rcases h5 with h | h | h
    · exact .inl h
    · exact .inr (.inl h)
    · refine .inr (.inr ?_)
      have h1 := slot_counts_looser hs zs
      rcases hs.consonants with hc | hc | hc
      · rw [hc]; omega
      · rw [hc] at h; simp at h; split <;> omega
      · rw [hc]; simp; split at h <;> omega

theorem lujvoOf_looser {s s' : Settings} {g : Bool} {vs : List Str} {w : Str} {sc : Int} (hs : Looser s s')
    (hv : ∀ v ∈ vs, Spelled v ∧ v.length < 10 ^ 90) (h : LujvoOf .linked s g vs w sc) : LujvoOf .linked s' g vs w sc := by
  obtain ⟨zs, hy, h1, h2, h3, h4⟩ := h
  exact ⟨zs, hy, represents_looser hs hv h1, legal_looser hs h2, h3, h4⟩

theorem past_looser {s s' : Settings} {v : Str} (hs : Looser s s') (h : Past s' v) : Past s v := by
  obtain ⟨x, j, e, hl, h1, h2, h3, h4⟩ := h
  refine ⟨x, j, e, hl, h1, h2, h3, ?_⟩
  rw [← h4, hs.mz, jvokaha2_same hs.same (letters_noY h1)]

/-- Relaxing the options does not make the best score worse. -/
theorem looser_found {s s' : Settings} {g : Bool} {vs : List Str} {r : Str × Int × List (Nat × Nat)} (hs : Looser s s')
    (hv : ∀ v ∈ vs, Spelled v ∧ v.length < 10 ^ 90) (h : getLujvoFromList (program .linked) s g vs = .ok r) (hlt : r.2.1 < 10 ^ 100) :
    LujvoOf .linked s' g vs r.1 r.2.1 ∧ ((∃ r', getLujvoFromList (program .linked) s' g vs = .ok r' ∧ r'.2.1 ≤ r.2.1) ∨
    (g = false ∧ getLujvoFromList (program .linked) s' g vs = .error .noLujvo ∧
      ∃ w sc, LujvoOf .linked s' g vs w sc ∧ (∀ w' sc', LujvoOf .linked s' g vs w' sc' → sc ≤ sc') ∧
        (program .linked).slinkuhi s'.yHyphens s'.allowMz w = .ok true)) := by
  have hl := lujvoOf_looser hs hv (getLujvoFromList_best.1 r h).1
  refine ⟨hl, ?_⟩
  rcases search_found (fun v hm => (hv v hm).1) hl hlt with ⟨r', h'⟩ | h' | ⟨-, -, v, hvm, hp⟩
  · exact .inl ⟨r', h', (getLujvoFromList_best.1 r' h').2 _ _ hl⟩
  · exact .inr h'
  · exfalso
    unfold getLujvoFromList at h
    obtain ⟨ll, hll, -⟩ := bind_ok h
    exact past_list hvm (past_looser hs hp) hll

end Jvotci
