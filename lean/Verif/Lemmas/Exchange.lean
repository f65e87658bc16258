import Verif.Lemmas.Back
import Verif.Lemmas.Table

/-!
# Helper lemmas: a gismu that is not the last component is never used whole

The gismu without its last vowel, and y, does the same and is two letters shorter.
-/

namespace Jvotci

open Spec

theorem wordOf_split (u t : List Slot) (h : Str) : ∃ A B, ∀ z : Slot, wordOf (u ++ z :: t) h = A ++ z.text ++ B := by
  cases u with
  | nil => exact ⟨[], h ++ (t.map Slot.text).flatten, fun z => by simp [wordOf]⟩
  | cons a u => exact ⟨a.text ++ h ++ (u.map Slot.text).flatten, (t.map Slot.text).flatten, fun z => by simp [wordOf]⟩

theorem represents_put {b : Build} {s : Settings} {n : Nat} {z : Slot} {t : List Slot} : ∀ {u : List Slot} {vs : List Str} {i : Nat},
    Represents b s n i vs (u ++ z :: t) → ∃ v ∈ vs, Usable b s v z.rafsi z.kind ∧ z.Written (i + u.length == 0) (i + u.length + 1 == n) ∧
      i + u.length + 1 + t.length = i + vs.length ∧
      ∀ z' : Slot, Usable b s v z'.rafsi z'.kind → z'.Written (i + u.length == 0) (i + u.length + 1 == n) → Represents b s n i vs (u ++ z' :: t)
  | [], vs, i, h => by
    cases h with
    | cons hu hw ht =>
      have := represents_length ht
      exact ⟨_, List.mem_cons_self .., hu, hw, by simp; omega, fun z' h1 h2 => .cons h1 h2 ht⟩
  | a :: u, vs, i, h => by
    cases h with
    | cons hu hw ht =>
      obtain ⟨v, hv, h1, h2, h3, h4⟩ := represents_put ht
      have e : i + (a :: u).length = i + 1 + u.length := by simp; omega
      rw [e]
      refine ⟨v, List.mem_cons_of_mem _ hv, h1, h2, by simp; omega, fun z' h5 h6 => .cons hu hw (h4 z' h5 h6)⟩

/-- Two slots that stand beside each other after one slot has been replaced. -/
theorem beside_put {u t : List Slot} {z z' p q : Slot} (h : Beside (u ++ z' :: t) p q) :
    Beside (u ++ z :: t) p q ∨ (p = z' ∧ Beside (u ++ z :: t) z q) ∨ (q = z' ∧ Beside (u ++ z :: t) p z) := by
  obtain ⟨u1, v1, e⟩ := h
  rcases List.append_eq_append_iff.1 e with ⟨a, e1, e2⟩ | ⟨a, e1, e2⟩
  · -- p does not come before z'
    cases a with
    | nil =>
      simp only [List.nil_append, List.cons.injEq] at e2
      obtain ⟨rfl, e2⟩ := e2
      exact .inr (.inl ⟨rfl, u, v1, by rw [e2]⟩)
    | cons c a =>
      simp only [List.cons_append, List.cons.injEq] at e2
      obtain ⟨rfl, e2⟩ := e2
      exact .inl ⟨u ++ z :: a, v1, by rw [e2]; simp⟩
  · cases a with
    | nil =>
      simp only [List.nil_append, List.cons.injEq] at e2
      obtain ⟨rfl, e2⟩ := e2
      exact .inr (.inl ⟨rfl, u, v1, by rw [← e2]⟩)
    | cons c a =>
      simp only [List.cons_append, List.cons.injEq] at e2
      obtain ⟨rfl, e2⟩ := e2
      cases a with
      | nil =>
        simp only [List.nil_append, List.cons.injEq] at e2
        obtain ⟨rfl, e2⟩ := e2
        exact .inr (.inr ⟨rfl, u1, t, by rw [e1]; simp⟩)
      | cons d a =>
        simp only [List.cons_append, List.cons.injEq] at e2
        obtain ⟨rfl, e2⟩ := e2
        exact .inl ⟨u1, a ++ z :: t, by rw [e1]; simp⟩

/-- The slot for a gismu cut short. -/
def cutSlot (x : Str) : Slot := ⟨x, .short, x ++ s%"y"⟩

/-- The slot for a whole gismu. -/
def wholeSlot (x : Str) (c : Char) : Slot := ⟨x ++ [c], .long, x ++ [c] ++ s%"'y"⟩

theorem gismu_cut {mz : Bool} {x : Str} {c : Char} (h : Gismu mz (x ++ [c])) :
    Rafsi mz x ∧ x.length = 4 ∧ kindOf x = .short ∧ Vowel c := by
  generalize e : x ++ [c] = v at h
  have key : ∀ {a b d f e : Char}, x ++ [c] = [a, b, d, f, e] → x = [a, b, d, f] ∧ c = e := by
    intro a b d f e h
    have : x ++ [c] = [a, b, d, f] ++ [e] := h
    exact List.append_inj' this rfl |>.imp id (by simp)
  have hr : Rafsi mz x ∧ x.length = 4 ∧ Vowel c := by
    cases h with
    | cvccv h1 h2 h3 h4 =>
      obtain ⟨rfl, rfl⟩ := key e
      exact ⟨.cvcc h1 h2 h3, rfl, h4⟩
    | ccvcv h1 h2 h3 h4 =>
      obtain ⟨rfl, rfl⟩ := key e
      exact ⟨.ccvc h1 h2 h3, rfl, h4⟩
  exact ⟨hr.1, hr.2.1, gismu_stem (by rw [e]; assumption) hr.1, hr.2.2⟩

theorem pattern_short {x : Str} (h : kindOf x = .short) : pattern x ≠ s%"CVC" ∧ pattern x ≠ s%"CCV" ∧ pattern x ∉ [s%"CVV", s%"CV'V"] ∧
    pattern x ≠ s%"CVCCV" := by
  unfold kindOf at h
  simp only [List.mem_cons, List.not_mem_nil, or_false, ne_eq, pattern_cvc, pattern_ccv, pattern_cvv, pattern_cvhv, pattern_cvccv]
  cases ht : rafsiTarmi x <;> rw [ht] at h <;> simp at h ⊢

theorem pattern_long {x : Str} (h : kindOf x = .long) : pattern x ≠ s%"CVC" ∧ pattern x ≠ s%"CCV" ∧ pattern x ∉ [s%"CVV", s%"CV'V"] := by
  unfold kindOf at h
  simp only [List.mem_cons, List.not_mem_nil, or_false, ne_eq, pattern_cvc, pattern_ccv, pattern_cvv, pattern_cvhv]
  cases ht : rafsiTarmi x <;> rw [ht] at h <;> simp at h ⊢

theorem legal_exchange {s : Settings} {g : Bool} {u t : List Slot} {x : Str} {c : Char} {h : Str} (hg : Gismu s.allowMz (x ++ [c]))
    (hL : Legal s g (u ++ wholeSlot x c :: t) h) : Legal s g (u ++ cutSlot x :: t) h := by
  obtain ⟨hx, hx4, hks, hcv⟩ := gismu_cut hg
  have hkl := gismu_long hg (.gismu hg)
  have hps := pattern_short hks
  have hpl := pattern_long hkl
  obtain ⟨a, b, w, ex, -, ha⟩ := rafsi_double hx
  have hq : a ≠ '\'' := (consonant_ne_y ha).2
  have head : (cutSlot x).text.head? = (wholeSlot x c).text.head? := by rw [ex]; rfl
  have headq : (cutSlot x).text.head? ≠ some '\'' := by rw [ex]; simpa [cutSlot] using hq
  have take : (cutSlot x).text.take 2 = (wholeSlot x c).text.take 2 := by rw [ex]; rfl
  have last : (cutSlot x).text.getLast? = some 'y' := by simp [cutSlot]
  have last' : (wholeSlot x c).text.getLast? = some 'y' := by simp [wholeSlot]
  obtain ⟨h1, h2, h3, h4, h5, h6⟩ := hL
  refine ⟨?_, ?_, ?_, ?_, ?_, ?_⟩
  · obtain ⟨y, z, rest, e, hf⟩ := h1
    match u, e with
    | [], e =>
      simp only [List.nil_append, List.cons.injEq] at e
      obtain ⟨rfl, rfl⟩ := e
      refine ⟨cutSlot x, z, rest, rfl, ?_⟩
      rcases hf with ⟨f1, -⟩ | ⟨-, -, f3⟩
      · rw [last'] at f1; cases f1
      · refine .inr ⟨by rw [last]; decide, fun hh => hps.2.1 hh.1, ?_⟩
        rw [if_neg (fun hh => hpl.2.2 hh.1)] at f3
        rw [if_neg (fun hh => hps.2.2.1 hh.1)]
        exact f3
    | [d], e =>
      simp only [List.cons_append, List.nil_append, List.cons.injEq] at e
      obtain ⟨rfl, rfl, rfl⟩ := e
      refine ⟨d, cutSlot x, t, rfl, ?_⟩
      have hc1 : ¬ pattern (cutSlot x).rafsi = s%"CCV" := hps.2.1
      have hc2 : ¬ pattern (wholeSlot x c).rafsi = s%"CCV" := hpl.2.1
      unfold FirstHyphen at hf ⊢
      rw [head]
      simp only [hc1, hc2] at hf ⊢
      exact hf
    | d :: d' :: u, e =>
      simp only [List.cons_append, List.cons.injEq] at e
      obtain ⟨rfl, rfl, rfl⟩ := e
      refine ⟨d, d', _, rfl, ?_⟩
      simpa using hf
  · intro p q hb
    rcases beside_put (z := wholeSlot x c) hb with hb' | ⟨rfl, hb'⟩ | ⟨rfl, hb'⟩
    · exact h2 _ _ hb'
    · refine ⟨?_, ?_, fun _ => .inl last⟩
      · intro a b h; rw [last] at h; cases h; intro _ h; exact absurd h (by decide)
      · intro a h; rw [last] at h; cases h; simp [bannedTriples]
    · obtain ⟨j1, j2, j3⟩ := h2 _ _ hb'
      refine ⟨by rw [head]; exact j1, by rw [take]; exact j2, ?_⟩
      rintro (h | h)
      · exact absurd h headq
      · have := rafsi_tarmi hx
        rw [shapeScore_other] at h; exact (h.elim this.1 this.2).elim
  · rintro hg ⟨u1, y, rest, hne, e, t1, t2, t3⟩
    refine h3 hg ?_
    rcases List.append_eq_append_iff.1 e with ⟨a, e1, e2⟩ | ⟨a, e1, e2⟩
    · exfalso
      cases a with
      | nil =>
        simp only [List.nil_append, List.cons.injEq] at e2
        obtain ⟨rfl, -⟩ := e2
        rcases t3 with ⟨t3, -⟩ | ⟨t3, -⟩
        · exact hps.2.2.2 t3
        · exact hps.1 t3
      | cons d a =>
        simp only [List.cons_append, List.cons.injEq] at e2
        obtain ⟨rfl, -⟩ := e2
        exact hps.1 (t1 (cutSlot x) (by rw [e1]; simp)).1
    · cases a with
      | nil =>
        exfalso
        simp only [List.nil_append, List.cons.injEq] at e2
        obtain ⟨rfl, -⟩ := e2
        rcases t3 with ⟨t3, -⟩ | ⟨t3, -⟩
        · exact hps.2.2.2 t3
        · exact hps.1 t3
      | cons d a =>
        simp only [List.cons_append, List.cons.injEq] at e2
        obtain ⟨rfl, -⟩ := e2
        exact ⟨u1, y, a ++ wholeSlot x c :: t, hne, by rw [e1]; simp, t1, t2, t3⟩
  · rintro hg ⟨y, rest, e, t1, t2, t3⟩
    cases u with
    | nil =>
      simp only [List.nil_append, List.cons.injEq] at e
      obtain ⟨rfl, -⟩ := e
      exact hps.1 t1
    | cons d u =>
      simp only [List.cons_append, List.cons.injEq] at e
      obtain ⟨rfl, rfl⟩ := e
      exact headq (t3 (cutSlot x) (by simp)).1
  · unfold Enough at h5 ⊢
    have : ((u ++ cutSlot x :: t).map (Slot.count s)).sum = ((u ++ wholeSlot x c :: t).map (Slot.count s)).sum := by
      simp only [List.map_append, List.map_cons, List.sum_append, List.sum_cons]
      rfl
    rw [this]
    exact h5
  · obtain ⟨A, B, hAB⟩ := wordOf_split u t h
    obtain ⟨l, hl, hv⟩ := h6
    refine ⟨l, ?_, hv⟩
    rw [hAB] at hl ⊢
    rw [List.getLast?_append, List.getLast?_append, last'] at hl
    rw [List.getLast?_append, List.getLast?_append, last]
    exact hl

theorem cost_exchange {mz : Bool} {u t : List Slot} {x : Str} {c : Char} {h : Str} (hg : Gismu mz (x ++ [c])) :
    cost (u ++ cutSlot x :: t) h < cost (u ++ wholeSlot x c :: t) h := by
  obtain ⟨hx, hx4, hks, hcv⟩ := gismu_cut hg
  have h10 : ∀ y, shapeScore y ≤ 10 := by
    intro y
    unfold shapeScore
    repeat' split
    all_goals omega
  obtain ⟨A, B, hAB⟩ := wordOf_split u t h
  unfold cost
  rw [hAB, hAB]
  simp only [vowelCount_append, List.length_append, List.count_append, List.map_append, List.map_cons, List.sum_append, List.sum_cons]
  have e1 : (cutSlot x).text.length = 5 := by simp [cutSlot, hx4]
  have e2 : (wholeSlot x c).text.length = 7 := by simp [wholeSlot, hx4]
  have hcy : c ≠ 'y' := by rintro rfl; revert hcv; decide
  have e3 : (wholeSlot x c).text.count 'y' = (cutSlot x).text.count 'y' := by
    simp [wholeSlot, cutSlot, hcy]
  have e4 : vowelCount (wholeSlot x c).text = vowelCount (cutSlot x).text + 1 := by
    simp only [wholeSlot, cutSlot, vowelCount_append]
    have a1 : vowelCount s%"'y" = 0 := by decide
    have a2 : vowelCount s%"y" = 0 := by decide
    have a3 : vowelCount [c] = 1 := by simp [vowelCount, hcv]
    omega
  have := h10 (cutSlot x).rafsi
  have := h10 (wholeSlot x c).rafsi
  rw [e1, e2, e3, e4]
  split <;> split <;> omega

/-! ## Components that are gismu or listed words -/

/-- A gismu, or letters without a consonant cluster (the form of a cmavo). -/
def Plain (mz : Bool) (v : Str) : Prop :=
  Gismu mz v ∨ ((∀ c ∈ v, Vowel c ∨ Consonant c ∨ c = '\'') ∧ ∀ a b, Adjacent v a b → ¬ (Consonant a ∧ Consonant b))

theorem table_check : RAFSI_LIST.all (fun e =>
    e.2.all (fun r => match r with
      | [_, a, b] => !(isVowel a && isVowel b) || [s%"ai", s%"ei", s%"oi", s%"au"].contains [a, b]
      | _ => true)) = true := by decide +kernel

theorem table_diph {v : Str} {rs : List Str} {r : Str} (h : (v, rs) ∈ RAFSI_LIST) (hr : r ∈ rs) : Diph r := by
  have := List.all_eq_true.1 table_check _ h
  have := List.all_eq_true.1 this _ hr
  rintro c a b rfl ha hb
  simp only [(isVowel_iff _).2 ha, (isVowel_iff _).2 hb, Bool.and_true, Bool.not_true, Bool.false_or] at this
  exact List.contains_iff_mem.1 this

theorem pair_mono {mz : Bool} {a b : Char} (h : PermissiblePair false a b) : PermissiblePair mz a b := by
  obtain ⟨h1, h2, h3, h4, h5, h6, h7, h8⟩ := h
  exact ⟨h1, h2, h3, h4, h5, h6, h7, fun h => absurd (h8 h) (by decide)⟩

theorem gismu_mono {mz : Bool} {v : Str} (h : Gismu false v) : Gismu mz v := by
  cases h with
  | cvccv h1 h2 h3 h4 => exact .cvccv h1 h2 (pair_mono h3) h4
  | ccvcv h1 h2 h3 h4 => exact .ccvcv h1 h2 h3 h4

theorem rafsi_mono {mz : Bool} {v : Str} (h : Rafsi false v) : Rafsi mz v := by
  cases h with
  | cvv h1 h2 h3 => exact .cvv h1 h2 h3
  | cvhv h1 h2 h3 => exact .cvhv h1 h2 h3
  | cvc h1 h2 h3 => exact .cvc h1 h2 h3
  | ccv h1 h2 => exact .ccv h1 h2
  | cvcc h1 h2 h3 => exact .cvcc h1 h2 (pair_mono h3)
  | ccvc h1 h2 h3 => exact .ccvc h1 h2 h3
  | gismu h => exact .gismu (gismu_mono h)

/-- How a gismu or listed word can be represented. -/
theorem plain_usable {b : Build} {s : Settings} {v x : Str} {k : Kind} (hv : Plain s.allowMz v) (h : Usable b s v x k) :
    (∃ rs, (v, rs) ∈ RAFSI_LIST ∧ x ∈ rs) ∨ (Gismu s.allowMz v ∧ ((k = .short ∧ ∃ c, v = x ++ [c]) ∨ (k = .long ∧ x = v))) := by
  have hlet : ∀ {v : Str}, Gismu s.allowMz v → ∀ c ∈ v, Vowel c ∨ Consonant c ∨ c = '\'' := fun h => rafsi_letters (.gismu h)
  have hcl : ∀ c ∈ v, Vowel c ∨ Consonant c ∨ c = '\'' := by
    rcases hv with h | h
    · exact hlet h
    · exact h.1
  have hnodash : '-' ∉ v := by
    intro h
    rcases hcl _ h with h | h | h
    · revert h; decide
    · revert h; decide
    · revert h; decide
  have hrd := reading_letters hcl
  have hgis : WordType b s v .gismu → Gismu s.allowMz v := by
    rintro ⟨ps, hw⟩
    have := (C03_gismu_iff.1 hw).2.1
    rw [hrd] at this
    exact this
  have hzi : WordType b s v .zihevla → Gismu s.allowMz v := by
    intro hw
    rcases hv with h | h
    · exact h
    · obtain ⟨-, -, a, b, h1, h2, h3⟩ := zihevla_facts hw
      rw [hrd] at h1
      exact (h.2 a b h1 ⟨h2, h3⟩).elim
  cases h with
  | listed _ h1 h2 _ => exact .inl ⟨_, h1, h2⟩
  | stem _ hw e => exact .inr ⟨hgis hw, .inl ⟨rfl, _, e⟩⟩
  | word _ hw => exact .inr ⟨hw.elim hgis hzi, .inr ⟨rfl, rfl⟩⟩
  | rafsi hd => exact absurd (by obtain ⟨-, i, j, rfl⟩ := hd; simp [List.replicate_succ]) hnodash
  | zihevla hd => exact absurd (by obtain ⟨-, i, j, rfl⟩ := hd; simp [List.replicate_succ]) hnodash
  | experimental hd => exact absurd (by obtain ⟨-, i, j, rfl⟩ := hd; simp [List.replicate_succ]) hnodash
  | cut e => exact absurd (by rw [e]; simp [List.replicate_succ]) hnodash

theorem plain_rafsi {b : Build} {s : Settings} {v x : Str} {k : Kind} (hv : Plain s.allowMz v) (h : Usable b s v x k) :
    Rafsi s.allowMz x ∧ Diph x := by
  have hlong : ∀ {x : Str}, 4 ≤ x.length → Diph x := by
    rintro x h c a b rfl
    simp at h
  rcases plain_usable hv h with ⟨rs, h1, h2⟩ | ⟨hg, ⟨-, c, e⟩ | ⟨-, rfl⟩⟩
  · exact ⟨rafsi_mono (isValidRafsi_iff.1 (table_shapes _ h1 _ h2).2), table_diph h1 h2⟩
  · rw [e] at hg
    have := gismu_cut hg
    exact ⟨this.1, hlong (by omega)⟩
  · exact ⟨.gismu hg, hlong (by cases hg <;> simp)⟩

theorem represents_mem {b : Build} {s : Settings} {n i : Nat} {vs : List Str} {zs : List Slot} (h : Represents b s n i vs zs) :
    ∀ z ∈ zs, ∃ v ∈ vs, Usable b s v z.rafsi z.kind := by
  induction h with
  | nil => simp
  | cons hu _ _ ih =>
    intro z hz
    rcases List.mem_cons.1 hz with rfl | hz
    · exact ⟨_, List.mem_cons_self .., hu⟩
    · obtain ⟨v, h1, h2⟩ := ih z hz
      exact ⟨v, List.mem_cons_of_mem _ h1, h2⟩

/-- A whole gismu does not come before the last place of the best lujvo. -/
theorem mixed_short {b : Build} {s : Settings} {g : Bool} {vs : List Str} {zs : List Slot} {hy : Str}
    (hv' : ∀ v ∈ vs, Plain s.allowMz v ∨ ∀ x k, Usable b s v x k → kindOf x ≠ .long)
    (hrep : Represents b s vs.length 0 vs zs) (hL : Legal s g zs hy)
    (hmin : ∀ w sc, LujvoOf b s g vs w sc → cost zs hy ≤ sc) : ∀ z ∈ zs.dropLast, kindOf z.rafsi ≠ .long := by
  intro z hz hk
  obtain ⟨u, t, e, hne⟩ : ∃ u t, zs = u ++ z :: t ∧ t ≠ [] := by
    obtain ⟨u, t, e⟩ := List.append_of_mem hz
    have hz' : zs ≠ [] := by rintro rfl; simp at hz
    refine ⟨u, t ++ [zs.getLast hz'], ?_, by simp⟩
    have := List.dropLast_concat_getLast hz'
    rw [e] at this
    simpa using this.symm
  subst e
  obtain ⟨v, hvm, hu, hw, hlen, hput⟩ := represents_put hrep
  have hv := (hv' v hvm).resolve_right fun h => h _ _ hu hk
  have hlast : (0 + u.length + 1 == vs.length) = false := by
    cases t with
    | nil => exact absurd rfl hne
    | cons => simp at hlen ⊢; omega
  rw [hlast] at hw hput
  have hzr := (plain_rafsi hv hu).1
  have hkind : z.kind = .long ∧ Gismu s.allowMz z.rafsi ∧ z.rafsi = v := by
    rcases plain_usable hv hu with ⟨rs, h1, h2⟩ | ⟨hg, ⟨-, c, e⟩ | ⟨h1, h2⟩⟩
    · exfalso
      have := (table_shapes _ h1 _ h2).1
      unfold kindOf at hk
      rcases this with h | h | h | h <;> rw [h] at hk <;> cases hk
    · rw [e] at hg
      have := (gismu_cut hg).2.2.1
      rw [this] at hk; cases hk
    · exact ⟨h1, h2 ▸ hg, h2⟩
  obtain ⟨hkl, hg, ezv⟩ := hkind
  obtain ⟨x, c, ex⟩ : ∃ x c, z.rafsi = x ++ [c] := by
    obtain ⟨c, hc, -⟩ := gismu_vowel hg
    obtain ⟨x, e⟩ := List.getLast?_eq_some_iff.1 hc
    exact ⟨x, c, e⟩
  rw [ex] at hg
  have hcut := gismu_cut hg
  obtain ⟨hh, htx, htr⟩ := hw
  rw [hkl] at htr
  have hh' : hh = s%"'y" := by
    rcases htr with ⟨h, -⟩ | ⟨-, h, -⟩
    exact h
  have ez : z = wholeSlot x c := by
    obtain ⟨zr, zk, zt⟩ := z
    simp only at ex hkl htx
    rw [ex, leading_rafsi (.gismu hg), hh'] at htx
    subst ex hkl htx
    rfl
  subst ez
  have hdash : v.getLast? ≠ some '-' := by
    rw [← ezv, ex]
    rw [List.getLast?_concat]
    intro h
    cases h
    exact absurd hcut.2.2.2 (by decide)
  have hrep' : Represents b s vs.length 0 vs (u ++ cutSlot x :: t) := by
    refine hput (cutSlot x) ?_ ?_
    · refine .stem (c := c) hdash ?_ (by rw [← ezv, ex]; rfl)
      refine ⟨[v], ?_⟩
      rw [C03_gismu_iff]
      have hrd : reading v = v := by
        rw [← ezv, ex]; exact reading_letters (rafsi_letters (.gismu hg))
      have hvg : Gismu s.allowMz v := by rw [← ezv, ex]; exact hg
      refine ⟨?_, by rw [hrd]; exact hvg, by rw [hrd]⟩
      rintro rfl
      cases hvg
    · exact ⟨s%"y", by simp [cutSlot, leading_rafsi hcut.1], .inl ⟨rfl, rfl⟩⟩
  have := hmin _ _ ⟨_, hy, hrep', legal_exchange hg hL, rfl, rfl⟩
  have := cost_exchange (u := u) (t := t) (h := hy) hg
  omega

theorem plain_short {b : Build} {s : Settings} {g : Bool} {vs : List Str} {zs : List Slot} {hy : Str} (hv : ∀ v ∈ vs, Plain s.allowMz v)
    (hrep : Represents b s vs.length 0 vs zs) (hL : Legal s g zs hy)
    (hmin : ∀ w sc, LujvoOf b s g vs w sc → cost zs hy ≤ sc) : ∀ z ∈ zs.dropLast, kindOf z.rafsi ≠ .long :=
  mixed_short (fun v h => .inl (hv v h)) hrep hL hmin

end Jvotci
