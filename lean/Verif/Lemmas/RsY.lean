import Verif.RsY
import Verif.Lemmas.Parts
import Verif.Lemmas.RsTarmi
import Verif.Lemmas.RsCheck

/-!
# The pieces that the Rust crate finds
-/

namespace Jvotci

open Spec

theorem rs_take_piece {l : Str} (h : l ≠ []) (m : Nat) : slice l 0 (m + 1) ≠ [] := by
  unfold slice
  cases l with
  | nil => exact absurd rfl h
  | cons c cs => simp

theorem rs_slice_split (l : Str) (m : Nat) : slice l 0 m ++ l.drop m = l := by simp [slice]

theorem rsTakeHyphen_flat {y : YHyphens} {l : Str} {res : List Str} {h : Str} (h0 : l ≠ []) (hh : rsTakeHyphen y l res = some h) :
    h ≠ [] ∧ h ++ l.drop h.length = l := by
  have key : ∀ m, slice l 0 (m + 1) ≠ [] ∧ slice l 0 (m + 1) ++ l.drop (slice l 0 (m + 1)).length = l := by
    intro m
    refine ⟨rs_take_piece h0 m, ?_⟩
    have e : slice l 0 (m + 1) = l.take (m + 1) := by simp [slice]
    rw [e, List.length_take]
    by_cases hm : m + 1 ≤ l.length
    · rw [Nat.min_eq_left hm, List.take_append_drop]
    · rw [Nat.min_eq_right (by omega), List.drop_length, List.append_nil, List.take_of_length_le (by omega)]
  unfold rsTakeHyphen at hh
  split at hh
  · cases hh
  split at hh
  · cases hh
  split at hh
  · cases hh
    exact key 0
  split at hh
  · cases hh
    exact key 1
  · cases hh

theorem rsTakeRafsi_flat {mz : Bool} {o l : Str} {cut : Cut} (h0 : l ≠ []) (h : rsTakeRafsi mz o l = .ok cut) :
    (∃ ps rest, cut = .pieces ps rest ∧ ps.flatten ++ rest = l ∧ [] ∉ ps) ∨ cut = .final l := by
  have key : ∀ m, (∃ ps rest, Cut.pieces [slice l 0 (m + 1)] (l.drop (m + 1)) = .pieces ps rest ∧ ps.flatten ++ rest = l ∧ [] ∉ ps) := by
    intro m
    refine ⟨_, _, rfl, ?_, ?_⟩
    · rw [List.flatten_cons, List.flatten_nil, List.append_nil, rs_slice_split]
    · simp only [List.mem_singleton]
      exact fun e => rs_take_piece h0 m e.symm
  unfold rsTakeRafsi at h
  split at h
  · cases h; exact .inl (key 2)
  split at h
  · cases h; exact .inl (key 3)
  simp only at h
  obtain ⟨-, h⟩ := rs_ite_ok h
  split at h
  case isTrue hc =>
    cases h
    left
    refine ⟨_, _, rfl, ?_, ?_⟩
    · by_cases hy : rsAt l 4 = 'y'
      · rw [if_pos hy]
        have e : l.drop 4 = 'y' :: l.drop 5 := by
          unfold rsAt at hy
          cases h4 : l[4]? with
          | none => rw [h4] at hy; exact absurd hy (by decide)
          | some c =>
            rw [h4] at hy
            have hy : c = 'y' := hy
            subst hy
            obtain ⟨hlt, hget⟩ := List.getElem?_eq_some_iff.1 h4
            rw [List.drop_eq_getElem_cons hlt, hget]
        have := rs_slice_split l 4
        rw [e] at this
        simpa using this
      · rw [if_neg hy]
        have h4 : l.length = 4 := by
          simp only [Bool.and_eq_true, Bool.or_eq_true, beq_iff_eq] at hc
          rcases hc.2 with h | h
          · exact h
          · exact absurd h hy
        rw [List.drop_of_length_le (by omega)]
        simp [slice, List.take_of_length_le (Nat.le_of_eq h4)]
    · have := rs_take_piece h0 3
      split <;> simp [this.symm, Ne.symm]
  split at h
  · cases h; exact .inr rfl
  split at h
  · obtain ⟨-, h⟩ := rs_ite_ok h
    cases h; exact .inl (key 2)
  split at h
  · obtain ⟨-, h⟩ := rs_ite_ok h
    obtain ⟨-, h⟩ := rs_ite_ok h
    cases h; exact .inl (key 2)
  · cases h

theorem rsJvokaha2Loop_flat {y : YHyphens} {mz : Bool} {o : Str} : ∀ {n : Nat} {l : Str} {res out : List Str},
    rsJvokaha2Loop y mz o n l res = .ok out → ∃ ps, out = res.reverse ++ ps ∧ ps.flatten = l ∧ [] ∉ ps
  | 0, _, _, _, h => by unfold rsJvokaha2Loop at h; cases h
  | n + 1, l, res, out, h => by
    unfold rsJvokaha2Loop at h
    by_cases h0 : l = []
    · rw [if_pos h0] at h
      cases h
      exact ⟨[], by simp, by simp [h0], by simp⟩
    rw [if_neg h0] at h
    cases hx : rsTakeHyphen y l res with
    | some x =>
      rw [hx] at h
      obtain ⟨hx0, hxl⟩ := rsTakeHyphen_flat h0 hx
      obtain ⟨ps, rfl, hp, hn⟩ := rsJvokaha2Loop_flat h
      refine ⟨x :: ps, by simp, ?_, ?_⟩
      · rw [List.flatten_cons, hp, hxl]
      · simp only [List.mem_cons, not_or]
        exact ⟨fun e => hx0 e.symm, hn⟩
    | none =>
      rw [hx] at h
      simp only at h
      cases hc : rsTakeRafsi mz o l with
      | error e => rw [hc] at h; cases h
      | ok cut =>
        rw [hc] at h
        rcases rsTakeRafsi_flat h0 hc with ⟨qs, rest, rfl, hq, hqn⟩ | rfl
        · obtain ⟨ps, rfl, hp, hn⟩ := rsJvokaha2Loop_flat (n := n) h
          refine ⟨qs ++ ps, by simp, ?_, ?_⟩
          · rw [List.flatten_append, hp, hq]
          · simp only [List.mem_append, not_or]
            exact ⟨hqn, hn⟩
        · cases h
          refine ⟨[l], by simp, by simp, ?_⟩
          simp only [List.mem_singleton]
          exact fun e => h0 e.symm

theorem rsJvokaha2_flat {y : YHyphens} {mz : Bool} {l : Str} {out : List Str} (h : rsJvokaha2 y mz l = .ok out) :
    out.flatten = l ∧ [] ∉ out := by
  obtain ⟨ps, rfl, hp, hn⟩ := rsJvokaha2Loop_flat h
  exact ⟨by simpa using hp, by simpa using hn⟩

theorem rsJvokaha_flat {A : RsRest} {sl : YHyphens → Bool → Str → Except RsErr Bool} {y : YHyphens} {co : Consonants} {gl mz : Bool}
    {l : Str} {out : List Str} (h : rsJvokaha A sl y co gl mz l = .ok out) : out.flatten = l ∧ [] ∉ out := by
  unfold rsJvokaha at h
  cases hj : rsJvokaha2 y mz l with
  | error e => rw [hj] at h; cases h
  | ok arr =>
    rw [hj] at h
    suffices hs : out = arr by rw [hs]; exact rsJvokaha2_flat hj
    simp only [bind, Except.bind] at h
    obtain ⟨-, h⟩ := rs_ite_ok h
    split at h
    · cases h
    split at h
    · cases h
    split at h
    · cases h
    split at h
    · cases h; rfl
    · cases h

/-- What `rsLeadingH` keeps. -/
theorem rsLeadingH_flat {i : Nat} {p q : Str} {b : Bool} (h : rsLeadingH i p = .ok (q, b)) :
    (if b then '\'' :: q else q) = p ∧ q ≠ [] := by
  unfold rsLeadingH at h
  obtain ⟨hp, h⟩ := rs_ite_ok h
  split at h
  case isTrue h0 =>
    cases p with
    | nil => simp at hp
    | cons c cs =>
      have h0 : c = '\'' := h0
      subst h0
      simp only [List.drop_succ_cons, List.drop_zero] at h
      obtain ⟨hc, h⟩ := rs_ite_ok h
      obtain ⟨-, h⟩ := rs_ite_ok h
      split at h
      · cases h
      · cases h
      · obtain ⟨-, h⟩ := rs_ite_ok h
        cases h
        exact ⟨rfl, by simpa using hc⟩
  case isFalse =>
    obtain ⟨-, h⟩ := rs_ite_ok h
    cases h
    exact ⟨rfl, by simpa using hp⟩

theorem rsPartForm_flat {s : Settings} {c : Bool} {yp : List Str} {i : Nat} {hc : Bool} {p : Str} {f : PartForm} (hp : p ≠ [])
    (h : rsPartForm s c yp i hc p = .ok f) : f.partCopy ++ (if f.trailingH then s%"'" else []) = p ∧ f.partCopy ≠ [] := by
  unfold rsPartForm at h
  simp only at h
  split at h
  case isTrue hl =>
    obtain ⟨hv, h⟩ := rs_ite_ok h
    cases h
    have hlast : p = dropLastN p 1 ++ ['\''] := by
      have h1 : p.getLast? = some '\'' := by
        cases h : p.getLast? with
        | none => simp at h; exact absurd h hp
        | some l => rw [rsBack_of h] at hl; rw [hl]
      obtain ⟨u, rfl⟩ : ∃ u, p = u ++ ['\''] := List.getLast?_eq_some_iff.1 h1
      simp [dropLastN]
    refine ⟨hlast.symm, ?_⟩
    intro e
    simp only at e
    rw [e] at hv
    revert hv
    decide
  case isFalse =>
    split at h
    · cases h; exact ⟨by simp, hp⟩
    · cases h; exact ⟨by simp, hp⟩

theorem rsTryKaha_flat {an : Settings → Str → Except RsErr (BType × List Str)} {s : Settings} {f : PartForm} {found : List Str}
    (h : rsTryKaha an s f = .ok (found, true)) : found.flatten = f.partCopy ∧ [] ∉ found := by
  unfold rsTryKaha at h
  simp only at h
  split at h
  · cases h
  · cases h
  cases hj : rsJvokaha2 s.yHyphens s.allowMz f.partCopy with
  | error e =>
    rw [hj] at h
    cases e <;> cases h
  | ok ps =>
    rw [hj] at h
    have hf := rsJvokaha2_flat hj
    match ps, h, hf with
    | [], h, hf => cases h
    | [p], h, hf =>
      obtain ⟨-, h⟩ := rs_ite_ok h
      cases h
      exact hf
    | p :: q :: ps, h, hf =>
      cases h
      exact hf

/-- The letters read so far. -/
def AState.letters (st : AState) : Str := st.resultParts.flatten ++ st.nextHyphen

theorem rsYPart_flat {A : RsRest} {n : Nat} {an : Settings → Str → Except RsErr (BType × List Str)} {s : Settings} {c : Bool} {v : Str}
    {yp : List Str} {i : Nat} {p : Str} {st st' : AState} (h : rsYPart A n an s c v yp i p st = .ok st') (hn : [] ∉ st.resultParts) :
    st'.letters = st.letters ++ (if i ≠ 0 then 'y' :: p else p) ∧ [] ∉ st'.resultParts ∧
      (st'.nextHyphen = [] ∨ st'.nextHyphen = s%"'") := by
  unfold rsYPart at h
  simp only at h
  cases hl : rsLeadingH i p with
  | error e => rw [hl] at h; cases h
  | ok r =>
    obtain ⟨q, b⟩ := r
    rw [hl] at h
    simp only at h
    obtain ⟨hq, hq0⟩ := rsLeadingH_flat hl
    generalize hnh : (if b then (if i ≠ 0 then st.nextHyphen ++ s%"y" else st.nextHyphen) ++ s%"'"
      else (if i ≠ 0 then st.nextHyphen ++ s%"y" else st.nextHyphen)) = nh at h
    generalize hrp : (if nh.isEmpty then st.resultParts else st.resultParts ++ [nh]) = rp at h
    have hread : rp.flatten ++ q = st.letters ++ (if i ≠ 0 then 'y' :: p else p) := by
      have h1 : rp.flatten = st.resultParts.flatten ++ nh := by
        rw [← hrp]
        cases nh <;> simp
      rw [h1, ← hnh, ← hq]
      unfold AState.letters
      by_cases hi : i = 0 <;> cases b <;> simp [hi]
    have hrp0 : [] ∉ rp := by
      rw [← hrp]
      split
      · exact hn
      case isFalse h =>
        simp only [List.mem_append, List.mem_singleton, not_or]
        exact ⟨hn, fun e => h (by rw [← e]; rfl)⟩
    split at h
    · cases h
      refine ⟨?_, ?_, .inl rfl⟩
      · rw [← hread]
        simp [AState.letters]
      · simp only [List.mem_append, List.mem_singleton, not_or]
        exact ⟨hrp0, fun e => hq0 e.symm⟩
    obtain ⟨-, h⟩ := rs_ite_ok h
    split at h
    · cases h
    rename_i f hf
    obtain ⟨hfc, hf0⟩ := rsPartForm_flat hq0 hf
    have hnx : (if f.trailingH then s%"'" else []) = [] ∨ (if f.trailingH then s%"'" else []) = s%"'" := by
      cases f.trailingH <;> simp
    split at h
    · cases h
    rename_i found katnad hk
    split at h
    case isTrue hkat =>
      subst hkat
      have hcan : f.canBeRafsi = true := by
        cases hc : f.canBeRafsi with
        | true => rfl
        | false => rw [hc] at hk; cases hk
      rw [hcan] at hk
      obtain ⟨hfl, hfn⟩ := rsTryKaha_flat hk
      split at h
      · cases h
      cases h
      refine ⟨?_, ?_, hnx⟩
      · rw [← hread, ← hfc, ← hfl]
        simp [AState.letters]
      · simp only [List.mem_append, not_or]
        exact ⟨hrp0, hfn⟩
    case isFalse =>
      split at h
      · cases h
      · cases h
      cases h
      refine ⟨?_, ?_, hnx⟩
      · rw [← hread, ← hfc]
        simp [AState.letters]
      · simp only [List.mem_append, List.mem_singleton, not_or]
        exact ⟨hrp0, fun e => hf0 e.symm⟩

theorem rsYLoop_flat {A : RsRest} {n : Nat} {an : Settings → Str → Except RsErr (BType × List Str)} {s : Settings} {c : Bool} {v : Str}
    {yp : List Str} : ∀ {ps : List Str} {i : Nat} {st st' : AState}, rsYLoop A n an s c v yp (i + 1) ps st = .ok st' →
    [] ∉ st.resultParts → (st.nextHyphen = [] ∨ st.nextHyphen = s%"'") →
    st'.letters = st.letters ++ ps.flatMap (fun q => 'y' :: q) ∧ [] ∉ st'.resultParts ∧ (st'.nextHyphen = [] ∨ st'.nextHyphen = s%"'")
  | [], _, _, _, h, hn, hx => by
    unfold rsYLoop at h
    cases h
    exact ⟨by simp, hn, hx⟩
  | p :: ps, i, st, st', h, hn, _ => by
    unfold rsYLoop at h
    split at h
    · cases h
    rename_i st1 h1
    obtain ⟨e1, n1, x1⟩ := rsYPart_flat h1 hn
    obtain ⟨e2, n2, x2⟩ := rsYLoop_flat h n1 x1
    refine ⟨?_, n2, x2⟩
    rw [e2, e1]
    simp

/-- The pieces of a word with y. -/
theorem rsY_flat {A : RsRest} {n : Nat} {an : Settings → Str → Except RsErr (BType × List Str)} {s : Settings} {c : Bool} {v : Str}
    {k : RsKind} {ps : List Str} (hv : v.getLast? ≠ some '\'') (h : rsY A n an s c v = .ok (k, ps)) :
    ps.flatten = v ∧ [] ∉ ps ∧ k = if c then .cmevla else .extendedLujvo := by
  unfold rsY at h
  split at h
  · cases h
  rename_i st hst
  have hfin : st.resultParts = ps ∧ (if c then RsKind.cmevla else .extendedLujvo) = k := by
    obtain ⟨-, h⟩ := rs_ite_ok h
    simp only at h
    generalize (if c then RsKind.cmevla else .extendedLujvo) = kind at h ⊢
    split at h
    · split at h
      · cases h
      · cases h
      · cases h; exact ⟨rfl, rfl⟩
    · cases h; exact ⟨rfl, rfl⟩
  obtain ⟨rfl, rfl⟩ := hfin
  have hj := joinSep_splitOn 'y' v
  cases hsp : splitOn 'y' v with
  | nil => exact absurd hsp (splitOn_ne_nil _ _)
  | cons p qs =>
    rw [hsp] at hst hj
    unfold rsYLoop at hst
    split at hst
    · cases hst
    rename_i st1 h1
    obtain ⟨e1, n1, x1⟩ := rsYPart_flat h1 (by simp)
    obtain ⟨e2, n2, x2⟩ := rsYLoop_flat hst n1 x1
    rw [e1] at e2
    have e3 : st.letters = v := by
      rw [e2, ← hj]
      simp [AState.letters, joinSep]
    unfold AState.letters at e3
    rcases x2 with x2 | x2
    · rw [x2, List.append_nil] at e3
      exact ⟨e3, n2, rfl⟩
    · rw [x2] at e3
      exfalso
      apply hv
      rw [← e3]
      simp

end Jvotci
