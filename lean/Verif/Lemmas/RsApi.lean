import Verif.SpecRsApi
import Verif.Lemmas.RsJvokaha
import Verif.Props.Input

/-!
# Lemmas: tanru and words given to the Rust crate
-/

namespace Jvotci

open Spec

theorem lowerChar_dot (c : Char) : (c = '.' → lowerChar c = ['.']) ∧ (c ≠ '.' → '.' ∉ lowerChar c) ∧ lowerChar c ≠ [] := by
  refine ⟨by rintro rfl; decide, ?_, ?_⟩
  · intro h
    unfold lowerChar
    by_cases hu : 'A' ≤ c ∧ c ≤ 'Z'
    · have := upper_cases hu
      rw [if_pos hu]
      revert this
      clear hu h
      revert c
      decide
    · rw [if_neg hu]
      split
      · decide
      · split
        · decide
        · simpa using fun e => h e.symm
  · unfold lowerChar
    repeat' split
    all_goals simp

theorem lower_append (u v : Str) : lower (u ++ v) = lower u ++ lower v := by simp [lower]

theorem lower_count (s : Str) : (lower s).count '.' = s.count '.' := by
  induction s with
  | nil => rfl
  | cons c s ih =>
    rw [show lower (c :: s) = lowerChar c ++ lower s from rfl, List.count_append, ih, List.count_cons]
    by_cases h : c = '.'
    · subst h
      rw [(lowerChar_dot '.').1 rfl]
      simp
      omega
    · rw [List.count_eq_zero.2 ((lowerChar_dot c).2.1 h)]
      simp [h]

theorem read_count (s : Str) : (((s.map (fun c => if c = 'h' then '\'' else c)).filter (fun c => c != ','))).count '.' = s.count '.' := by
  induction s with
  | nil => rfl
  | cons c s ih =>
    rw [List.map_cons, List.count_cons]
    by_cases h : c = '.'
    · subst h
      simpa using ih
    · by_cases h2 : c = 'h'
      · subst h2
        simpa using ih
      · by_cases h3 : c = ','
        · subst h3
          simpa using ih
        · rw [if_neg h2, List.filter_cons_of_pos (by simpa using h3), List.count_cons, ih]

theorem stripBoth_count (s : Str) : (stripBoth (· == '.') s).count '.' ≤ s.count '.' := by
  unfold stripBoth
  rw [List.count_reverse]
  refine Nat.le_trans ((List.dropWhile_sublist _).count_le _) ?_
  rw [List.count_reverse]
  exact (List.dropWhile_sublist _).count_le _

theorem stripBoth_dot (s : Str) : stripBoth (· == '.') ('.' :: s) = stripBoth (· == '.') s := by
  unfold stripBoth
  rw [List.dropWhile_cons_of_pos (by decide)]

theorem stripBoth_last (s : Str) : stripBoth (· == '.') (s ++ ['.']) = stripBoth (· == '.') s := by
  unfold stripBoth
  rw [List.dropWhile_append]
  split
  · rename_i h
    rw [List.isEmpty_iff.1 h]
    simp
  · rw [List.reverse_append]
    simp

theorem stripBoth_none {s : Str} (h1 : s.head? ≠ some '.') (h2 : s.getLast? ≠ some '.') : stripBoth (· == '.') s = s := by
  unfold stripBoth
  have e1 : s.dropWhile (· == '.') = s := by
    cases s with
    | nil => rfl
    | cons c s => rw [List.dropWhile_cons_of_neg (by simpa using h1)]
  have e2 : s.reverse.dropWhile (· == '.') = s.reverse := by
    rw [List.getLast?_eq_head?_reverse] at h2
    cases h : s.reverse with
    | nil => rfl
    | cons c t =>
      rw [h] at h2
      rw [List.dropWhile_cons_of_neg (by simpa using h2)]
  rw [e1, e2, List.reverse_reverse]

theorem flat_read (cs : Str) :
    ((lower cs).map (fun c => if c = 'h' then '\'' else c)).filter (fun c => c != ',') = cs.flatMap readChar := by
  induction cs with
  | nil => rfl
  | cons c cs ih =>
    unfold lower at ih ⊢
    simp only [List.flatMap_cons, List.map_append, List.filter_append]
    rw [ih, lowerChar_read]

theorem lower_head {s : Str} (h : s.head? ≠ some '.') : (lower s).head? ≠ some '.' := by
  cases s with
  | nil => simp [lower]
  | cons c s =>
    have hc : c ≠ '.' := by simpa using h
    obtain ⟨-, h1, h2⟩ := lowerChar_dot c
    rw [show lower (c :: s) = lowerChar c ++ lower s from rfl]
    cases hl : lowerChar c with
    | nil => exact absurd hl h2
    | cons d t =>
      intro e
      simp at e
      exact h1 hc (by rw [hl, e]; simp)

theorem lower_last {s : Str} (h : s.getLast? ≠ some '.') : (lower s).getLast? ≠ some '.' := by
  rcases List.eq_nil_or_concat s with rfl | ⟨u, c, rfl⟩
  · simp [lower]
  · have hc : c ≠ '.' := by simpa using h
    obtain ⟨-, h1, h2⟩ := lowerChar_dot c
    rw [List.concat_eq_append, lower_append, show lower [c] = lowerChar c by simp [lower], List.getLast?_append]
    cases hl : (lowerChar c).getLast? with
    | none => simp at hl; exact absurd hl h2
    | some d =>
      intro e
      simp at e
      exact h1 hc (by rw [← e]; exact getLast_mem hl)

/-- A word is read the same way exactly when it has no stray full stop. -/
theorem rsNormalise_iff (w : Str) : rsNormalise w = reading w ↔ ¬ StrayDot w := by
  have hcount : ∀ v, (rsNormalise v).count '.' = (stripBoth (· == '.') (lower v)).count '.' := fun v => read_count _
  have hread : ∀ v : Str, (v.flatMap readChar).count '.' = v.count '.' := by
    intro v
    rw [← flat_read, read_count, lower_count]
  have hstrip : ∀ v, (stripBoth (· == '.') (lower v)).count '.' ≤ v.count '.' := fun v => (lower_count v) ▸ stripBoth_count (lower v)
  constructor
  · intro h hs
    have e := congrArg (List.count '.') h
    rw [hcount] at e
    cases hs with
    | two u =>
      rw [show reading ('.' :: '.' :: u) = ('.' :: u).flatMap readChar from rfl, hread, show lower ('.' :: '.' :: u) = '.' :: '.' :: lower u from rfl,
        stripBoth_dot, stripBoth_dot] at e
      have := hstrip u
      simp at e
      omega
    | last u hu =>
      rw [lower_append, show lower ['.'] = ['.'] from by decide, stripBoth_last] at e
      cases u with
      | nil => exact hu rfl
      | cons c u =>
        by_cases hc : c = '.'
        · subst hc
          rw [show reading ('.' :: u ++ ['.']) = (u ++ ['.']).flatMap readChar from rfl, hread, show lower ('.' :: u) = '.' :: lower u from rfl,
            stripBoth_dot] at e
          have := hstrip u
          simp at e
          omega
        · have hr : reading (c :: u ++ ['.']) = (c :: u ++ ['.']).flatMap readChar := by
            unfold reading
            split
            · rename_i h; cases h; exact absurd rfl hc
            · rfl
          rw [hr, hread, List.count_append, show List.count '.' ['.'] = 1 from rfl] at e
          have := hstrip (c :: u)
          omega
  · intro h
    have key : ∀ v : Str, v.head? ≠ some '.' → v.getLast? ≠ some '.' →
        ((stripBoth (· == '.') (lower v)).map (fun c => if c = 'h' then '\'' else c)).filter (fun c => c != ',') = v.flatMap readChar := by
      intro v h1 h2
      rw [stripBoth_none (lower_head h1) (lower_last h2), flat_read]
    unfold rsNormalise
    have hl : ∀ u v : Str, w = u ++ v → u ≠ [] → v.getLast? ≠ some '.' := by
      intro u v e hu hv
      obtain ⟨v', rfl⟩ := List.getLast?_eq_some_iff.1 hv
      rw [← List.append_assoc] at e
      subst e
      exact h (.last _ (by simp [hu]))
    cases w with
    | nil => rfl
    | cons c w =>
      by_cases hc : c = '.'
      · subst hc
        rw [show reading ('.' :: w) = w.flatMap readChar from rfl, show lower ('.' :: w) = '.' :: lower w from rfl, stripBoth_dot]
        refine key w ?_ (hl ['.'] w rfl (by simp))
        intro e
        cases w with
        | nil => cases e
        | cons d w =>
          simp at e
          subst e
          exact h (.two w)
      · have hr : reading (c :: w) = (c :: w).flatMap readChar := by
          unfold reading
          split
          · rename_i h; cases h; exact absurd rfl hc
          · rfl
        rw [hr]
        refine key _ (by simpa using hc) ?_
        cases w with
        | nil => simpa using hc
        | cons d w =>
          have := hl [c] (d :: w) rfl (by simp)
          simpa using this

theorem rsIsSpace_eq {c : Char} (h : c.toNat ∉ [0x1C, 0x1D, 0x1E, 0x1F]) : rsIsSpace c = isSpace c := by
  simp only [List.mem_cons, List.not_mem_nil, or_false, not_or] at h
  unfold rsIsSpace isSpace
  have : (28 ≤ c.toNat && c.toNat ≤ 32) = (c.toNat == 32) := by
    rw [Bool.eq_iff_iff]
    simp
    omega
  simp only [this]

theorem rsSplitAux_eq : ∀ (s acc : Str), (∀ c ∈ s, c.toNat ∉ [0x1C, 0x1D, 0x1E, 0x1F]) → rsSplitAux acc s = splitWsAux acc s
  | [], _, _ => rfl
  | c :: s, acc, h => by
    unfold rsSplitAux splitWsAux
    rw [rsIsSpace_eq (h c (by simp)), rsSplitAux_eq s [] fun d hd => h d (by simp [hd]), rsSplitAux_eq s (c :: acc) fun d hd => h d (by simp [hd])]

theorem rsIndicesLoop_eq : ∀ (l : List Str) (pos : Nat) (acc : List (Nat × Nat)), rsIndicesLoop l pos acc = acc ++ rafsiIndicesFrom pos l
  | [], _, acc => by simp [rsIndicesLoop, rafsiIndicesFrom]
  | r :: l, pos, acc => by
    unfold rsIndicesLoop rafsiIndicesFrom
    rw [rsIndicesLoop_eq l]
    cases h : HYPHENS.contains r <;> simp

theorem findSome_eq (r : Str) : ∀ l : List (Str × List Str),
    l.findSome? (fun e => if e.2.contains r then some e.1 else none) = (l.find? (fun e => e.2.contains r)).map (·.1)
  | [] => rfl
  | e :: l => by
    rw [List.findSome?_cons, List.find?_cons, findSome_eq r l]
    cases h : e.2.contains r <;> simp

theorem rsSearchSelrafsi_eq (r : Str) : rsSearchSelrafsi r = searchSelrafsi r := by
  unfold rsSearchSelrafsi searchSelrafsi
  have h : (r.any (· == '\'')) = r.contains '\'' := by
    rw [Bool.eq_iff_iff]
    simp
  rw [findSome_eq, h]
  by_cases hc : r ≠ s%"brod" ∧ r.length = 4 ∧ ¬ r.contains '\'' = true
  · have hc' : r ≠ s%"brod" ∧ r.length = 4 ∧ (!r.contains '\'') = true := by simpa using hc
    simp only [if_pos hc, if_pos hc']
    cases List.find? (fun gismu => (List.lookup gismu RAFSI_LIST).isSome) (List.map (fun c => r ++ [c]) s%"aeiou") <;> rfl
  · have hc' : ¬ (r ≠ s%"brod" ∧ r.length = 4 ∧ (!r.contains '\'') = true) := by simpa using hc
    simp only [if_neg hc, if_neg hc']
    rfl

theorem plain_cuttable {w : Str} {c : Char} (h : PlainWord w) (hc : w.getLast? = some c) (hv : Vowel c) : Cuttable w := by
  refine ⟨h.letters, ?_, ?_⟩
  · intro u v e
    exact h.yy ⟨u, v, by rw [e]; simp⟩
  · rw [hc]
    constructor <;> (intro e; cases e; revert hv; decide)

theorem plain_not_ccvhy {w : Str} (h : PlainWord w) : rafsiTarmi (slice w 0 3) = .ccv → slice w 3 5 ≠ s%"'y" := by
  intro h3 h5
  obtain ⟨a', b', v', e, ha, hb, hv⟩ := tarmi_ccv.1 h3
  match w, e, h5 with
  | [], e, _ => simp [slice] at e
  | [_], e, _ => simp [slice] at e
  | [_, _], e, _ => simp [slice] at e
  | [_, _, _], _, h5 => simp [slice] at h5
  | [_, _, _, _], _, h5 => simp [slice] at h5
  | a :: b :: v :: d :: f :: t, e, h5 =>
    simp [slice] at e h5
    obtain ⟨rfl, rfl, rfl⟩ := e
    obtain ⟨rfl, rfl⟩ := h5
    exact h.start a b v t rfl ⟨(isConsonant_iff a).1 ha, (isConsonant_iff b).1 hb, (isVowel_iff v).1 hv⟩

theorem spaced_ne {t : Str} {ws : List Str} (h : Spaced t ws) : ∀ w ∈ ws, w ≠ [] := by
  induction h with
  | none _ => intro w hw; cases hw
  | word _ hw _ _ _ ih =>
    intro v hv
    rcases List.mem_cons.1 hv with rfl | hv
    · exact hw
    · exact ih v hv

theorem mapM_reading : ∀ {l : List Str}, (∀ w ∈ l, w ≠ []) → l.mapM normalise = .ok (l.map reading)
  | [], _ => rfl
  | w :: l, h => by
    rw [List.mapM_cons, normalise_eq (h w (by simp)), ok_bind, mapM_reading fun v hv => h v (by simp [hv])]
    rfl

theorem rs_isGismuOrLujvo {A : RsRest} {n : Nat} {y : YHyphens} {mz : Bool} {w : Str} (hw : PlainWord w) (hlen : w.length < 180000) :
    ∃ b, isGismuOrLujvo (program .linked) y mz w = .ok b ∧ rsIsGismuOrLujvo A (n + 2) y mz w = .ok b := by
  unfold isGismuOrLujvo rsIsGismuOrLujvo
  by_cases h5 : w.length < 5
  · rw [if_pos h5, if_pos (.inl h5)]
    exact ⟨false, rfl, rfl⟩
  rw [if_neg h5]
  cases hc : w.getLast? with
  | none => simp at hc; subst hc; exact absurd (by decide) h5
  | some c =>
    simp only [idxLast, hc, rsBack_of hc, rsIsVowel_eq]
    rw [ok_bind]
    cases hv : isVowel c with
    | false =>
      rw [if_pos (by simp), if_pos (.inr (by simp))]
      exact ⟨false, rfl, rfl⟩
    | true =>
      rw [rsIsGismu_eq]
      simp only [h5, not_true, or_false, Bool.not_true, Bool.false_eq_true, if_false]
      cases isGismu mz w with
      | true => exact ⟨true, rfl, rfl⟩
      | false =>
        simp only [Bool.false_eq_true, if_false]
        have hv := (isVowel_iff c).1 hv
        rcases near_jvokaha_any (A := A) (n := n) (y := y) (co := .cluster) (gl := false) (mz := mz) (plain_cuttable hw hc hv) (plain_not_ccvhy hw) hc hv hlen with
          ⟨arr, h1, h2⟩ | ⟨e, e', h1, h2, h3, h4⟩
        · rw [h1, h2]
          exact ⟨true, rfl, rfl⟩
        · rw [h1, h2]
          refine ⟨false, by rcases h3 with rfl | rfl <;> rfl, by rcases h4 with rfl | rfl <;> rfl⟩

end Jvotci
