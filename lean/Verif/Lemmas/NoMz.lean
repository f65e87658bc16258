import Verif.Lemmas.Unread

/-!
# Helper lemmas: words without mz
-/

namespace Jvotci

open Spec

/-- There is no mz in `w`. -/
def NoMz (w : Str) : Prop := ¬ Adjacent w 'm' 'z'

/-- There is no myz in `w`. -/
def NoMyz (w : Str) : Prop := ¬ Occurs s%"myz" w

theorem noMz_mid {u x v : Str} (h : NoMz (u ++ x ++ v)) : NoMz x := by
  rintro ⟨a, b, rfl⟩
  exact h ⟨u ++ a, b ++ v, by simp⟩

theorem noMz_mem {ps : List Str} (h : NoMz ps.flatten) {p : Str} (hp : p ∈ ps) : NoMz p := by
  obtain ⟨u, v, rfl⟩ := List.append_of_mem hp
  refine noMz_mid (u := u.flatten) (v := v.flatten) ?_
  simpa using h

theorem last_split {p : Str} {c : Char} (h : p.getLast? = some c) : ∃ u, p = u ++ [c] := by
  obtain ⟨u, rfl⟩ := List.getLast?_eq_some_iff.1 h
  exact ⟨u, rfl⟩

theorem head_split {p : Str} {c : Char} (h : p.head? = some c) : ∃ u, p = c :: u := by
  cases p with
  | nil => cases h
  | cons a u => cases h; exact ⟨u, rfl⟩

theorem noMz_joint {u v : List Str} {p q : Str} (h : NoMz (u ++ p :: q :: v).flatten) : ¬ (p.getLast? = some 'm' ∧ q.head? = some 'z') := by
  rintro ⟨h1, h2⟩
  obtain ⟨p, rfl⟩ := last_split h1
  obtain ⟨q, rfl⟩ := head_split h2
  exact h ⟨u.flatten ++ p, q ++ v.flatten, by simp⟩

theorem noMyz_joint {u v : List Str} {p q : Str} (h : NoMyz (u ++ p :: s%"y" :: q :: v).flatten) :
    ¬ (p.getLast? = some 'm' ∧ q.head? = some 'z') := by
  rintro ⟨h1, h2⟩
  obtain ⟨p, rfl⟩ := last_split h1
  obtain ⟨q, rfl⟩ := head_split h2
  exact h ⟨u.flatten ++ p, q ++ v.flatten, by simp⟩

theorem noMyz_of_noY {w : Str} (h : 'y' ∉ w) : NoMyz w := by
  rintro ⟨u, v, rfl⟩
  exact h (by simp)

theorem noMz_end {w : Str} (h : NoMz w) : NoMz (w ++ s%"a") := by
  rintro ⟨u, v, e⟩
  rcases List.eq_nil_or_concat v with rfl | ⟨v, c, rfl⟩
  · have : (w ++ s%"a").getLast? = (u ++ ['m', 'z']).getLast? := by rw [e]
    simp at this
  · have e' : w ++ s%"a" = (u ++ 'm' :: 'z' :: v) ++ [c] := by rw [e]; simp
    exact h ⟨u, v, (List.append_inj' e' rfl).1⟩

theorem noMz_to {w : Str} (h : NoMz w) : NoMz (s%"to" ++ w) := by
  rintro ⟨u, v, e⟩
  match u, e with
  | [], e => cases e
  | [_], e => simp at e
  | _ :: _ :: u, e => simp at e; exact h ⟨u, v, e.2.2⟩

theorem noMyz_to {w : Str} (h : NoMyz w) : NoMyz (s%"to" ++ w) := by
  rintro ⟨u, v, e⟩
  match u, e with
  | [], e => cases e
  | [_], e => simp at e
  | _ :: _ :: u, e => simp at e; exact h ⟨u, v, by simp [e.2.2]⟩

/-! ## Rafsi and pieces -/

theorem pair_mz {mz mz' : Bool} {a b : Char} (h : PermissiblePair mz a b) (hn : ¬ (a = 'm' ∧ b = 'z')) : PermissiblePair mz' a b := by
  obtain ⟨h1, h2, h3, h4, h5, h6, h7, h8⟩ := h
  refine ⟨h1, h2, h3, h4, h5, h6, h7, fun e => absurd ?_ hn⟩
  simpa using e

theorem pair_true {mz : Bool} {a b : Char} (h : PermissiblePair mz a b) : PermissiblePair true a b :=
  ⟨h.1, h.2.1, h.2.2.1, h.2.2.2.1, h.2.2.2.2.1, h.2.2.2.2.2.1, h.2.2.2.2.2.2.1, fun _ => rfl⟩

theorem gismu_mz {mz mz' : Bool} {x : Str} (h : Gismu mz x) (hn : NoMz x) : Gismu mz' x := by
  cases h with
  | @cvccv a b c d e h1 h2 h3 h4 =>
    refine .cvccv h1 h2 (pair_mz h3 ?_) h4
    rintro ⟨rfl, rfl⟩
    exact hn ⟨[a, b], [e], rfl⟩
  | ccvcv h1 h2 h3 h4 => exact .ccvcv h1 h2 h3 h4

theorem rafsi_mz {mz mz' : Bool} {x : Str} (h : Rafsi mz x) (hn : NoMz x) : Rafsi mz' x := by
  cases h with
  | cvv h1 h2 h3 => exact .cvv h1 h2 h3
  | cvhv h1 h2 h3 => exact .cvhv h1 h2 h3
  | cvc h1 h2 h3 => exact .cvc h1 h2 h3
  | ccv h1 h2 => exact .ccv h1 h2
  | @cvcc a b c d h1 h2 h3 =>
    refine .cvcc h1 h2 (pair_mz h3 ?_)
    rintro ⟨rfl, rfl⟩
    exact hn ⟨[a, b], [], rfl⟩
  | ccvc h1 h2 h3 => exact .ccvc h1 h2 h3
  | gismu h => exact .gismu (gismu_mz h hn)

theorem fit_mz {mz mz' : Bool} {p q : Str} (h : Fit mz p q) (hn : mz' = true ∨ ¬ (p.getLast? = some 'm' ∧ q.head? = some 'z')) :
    Fit mz' p q := by
  refine ⟨h.1, fun c d hc hd hcc => ?_, h.2.2⟩
  have := h.2.1 c d hc hd hcc
  rcases hn with rfl | hn
  · exact pair_true this
  · refine pair_mz this ?_
    rintro ⟨rfl, rfl⟩
    exact hn ⟨hc, hd⟩

theorem link_mz {y : YHyphens} {mz mz' : Bool} {p q : Str} (h : Link y mz p q) (hp : NoMz p) (hq : NoMz q)
    (hn : ¬ (p.getLast? = some 'm' ∧ q.head? = some 'z')) : Link y mz' p q := by
  cases h with
  | rafsi h1 h2 h3 h4 h5 =>
    have := fit_mz (mz' := mz') ⟨h3, h4, h5⟩ (.inr hn)
    exact .rafsi (rafsi_mz h1 hp) (rafsi_mz h2 hq) this.1 this.2.1 this.2.2
  | y h1 h2 => exact .y (rafsi_mz h1 hp) h2
  | apostropheY h1 h2 h3 => exact .apostropheY h1 (rafsi_mz h2 hp) h3
  | rOrN h1 h2 h3 h4 => exact .rOrN h1 (rafsi_mz h2 hp) h3 h4
  | afterY h1 h2 => exact .afterY h1 (rafsi_mz h2 hq)
  | afterR h1 h2 => exact .afterR (rafsi_mz h1 hq) h2
  | afterN h1 h2 => exact .afterN (rafsi_mz h1 hq) h2

theorem reading_mz {y : YHyphens} {mz mz' : Bool} {ps : List Str} (h : Reading y mz ps) (hn : NoMz ps.flatten) : Reading y mz' ps := by
  refine ⟨?_, ?_, h.diphthongs, ?_, h.start⟩
  · obtain ⟨p, hp, hr⟩ := h.first
    exact ⟨p, hp, rafsi_mz hr (noMz_mem hn (List.mem_of_head? hp))⟩
  · obtain ⟨p, hp, hr⟩ := h.last
    exact ⟨p, hp, rafsi_mz hr (noMz_mem hn (List.mem_of_getLast? hp))⟩
  · rintro u p q v rfl
    exact link_mz (h.links u p q v rfl) (noMz_mem hn (by simp)) (noMz_mem hn (by simp)) (noMz_joint hn)

/-- The pieces of a lujvo without mz; with `allow_mz` there are fewer y between m and z. -/
theorem lujvoPieces_mz {s : Settings} {b : Bool} {ps : List Str} (h : LujvoPieces s ps) (hn : NoMz ps.flatten)
    (hy : s.allowMz = true ∨ NoMyz ps.flatten) : LujvoPieces { s with allowMz := b } ps := by
  refine ⟨reading_mz h.reading hn, h.two, h.vowel, h.first, ?_, h.apostropheY, h.whole, h.cluster⟩
  rintro u p q v rfl
  rcases h.y u p q v rfl with h1 | h1
  · exact .inl fun hf => h1 (fit_mz hf (hy.imp_right noMyz_joint))
  · exact .inr h1

theorem cmevlaPieces_mz {s : Settings} {b : Bool} {ps : List Str} (h : CmevlaPieces s ps) (hn : NoMz ps.flatten)
    (hy : s.allowMz = true ∨ NoMyz ps.flatten) : CmevlaPieces { s with allowMz := b } ps := by
  refine ⟨reading_mz h.reading hn, h.two, h.consonant, ?_, h.apostropheY, h.first⟩
  rintro u p q v rfl hf
  exact h.y u p q v rfl (fit_mz hf (hy.imp_right noMyz_joint))

theorem sounds_mz {mz mz' : Bool} {x : Str} (h : Sounds mz x) (hn : NoMz x) : Sounds mz' x := by
  refine ⟨h.letters, h.apostrophe, ?_, h.triples, h.initial, h.middle, h.vowels⟩
  intro a b hab ha hb
  refine pair_mz (h.pairs a b hab ha hb) ?_
  rintro ⟨rfl, rfl⟩
  exact hn hab

theorem noMz_drop {w : Str} {n : Nat} (h : NoMz w) : NoMz (w.drop n) := by
  refine noMz_mid (u := w.take n) (v := []) ?_
  simpa using h

theorem noMz_slice {w : Str} {m n : Nat} (h : NoMz w) : NoMz (slice w m n) := by
  rintro ⟨u, v, e⟩
  unfold slice at e
  refine h ⟨(w.take n).take m ++ u, v ++ w.drop n, ?_⟩
  calc w = w.take n ++ w.drop n := (List.take_append_drop n w).symm
    _ = ((w.take n).take m ++ (w.take n).drop m) ++ w.drop n := congrArg (· ++ w.drop n) (List.take_append_drop m (w.take n)).symm
    _ = _ := by rw [e]; simp

end Jvotci
