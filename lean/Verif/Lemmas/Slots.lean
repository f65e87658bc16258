import Verif.SpecLujvo
import Verif.Lemmas.Optimal
import Verif.Lemmas.Keys

/-!
# Helper lemmas: the rafsi list of a component is what the specification says
-/

namespace Jvotci

open Spec

/-! ## Forms of a rafsi -/

theorem vowelInitial_iff {x : Str} : VowelInitial x ↔ ∃ c, x.head? = some c ∧ isVowel c = true := by
  cases x with
  | nil => simp [VowelInitial]
  | cons a x => simp [VowelInitial, isVowel_iff]

theorem consonantInitial_iff {x : Str} : ConsonantInitial x ↔ ∃ c, x.head? = some c ∧ isConsonant c = true := by
  cases x with
  | nil => simp [ConsonantInitial]
  | cons a x => simp [ConsonantInitial, isConsonant_iff]

theorem onglide_iff {x : Str} : Onglide x ↔ isGlide x = true := by
  match x with
  | [] => simp [Onglide, isGlide]
  | [a] => simp [Onglide, isGlide]
  | a :: b :: x => simp [Onglide, isGlide, isVowel_iff]

theorem leading_prefixOf (f : Bool) (x : Str) : leading f x = prefixOf f x := by
  unfold leading prefixOf
  simp only [vowelInitial_iff, onglide_iff, Bool.not_eq_true]

theorem apostrophise_leading {f : Bool} {x r : Str} (h : apostrophise f x = .ok r) : r = leading f x ++ x := by
  rw [leading_prefixOf]; exact apostrophise_ok h

/-- The kind of a rafsi, by the type `get_rafsi_for_rafsi` is told. -/
def TypeKind : RType → Kind → Prop
  | .shortBrivla, k => k = .short
  | .longBrivla, k => k = .long
  | .experimental, k => k = .exp
  | .tarmi .cvv, k => k = .vv
  | .tarmi .cvhv, k => k = .vv
  | .tarmi .ccv, k => k = .ccv
  | .tarmi .cvc, k => k = .cvc
  | .tarmi .cvcc, k => k = .short
  | .tarmi .ccvc, k => k = .short
  | .tarmi .cvccv, k => k = .long
  | .tarmi .ccvcv, k => k = .long
  | _, _ => False

theorem shapeKind_iff {x : Str} {k : Kind} : ShapeKind x k ↔ TypeKind (.tarmi (rafsiTarmi x)) k := by
  unfold ShapeKind
  simp only [List.mem_cons, List.not_mem_nil, or_false, pattern_cvv, pattern_cvhv, pattern_ccv, pattern_cvc, pattern_cvcc,
    pattern_ccvc, pattern_cvccv, pattern_ccvcv]
  cases rafsiTarmi x <;> simp [TypeKind]

/-- What the search knows of a slot. -/
def opt (s : Settings) (z : Slot) : RafsiOpt := (z.text, z.count s)

theorem getRafsiForRafsi_iff {s : Settings} {f l : Bool} {x : Str} {t : RType} {k : Kind} {os : List RafsiOpt}
    (h : getRafsiForRafsi x t f l s.consonants s.glides = .ok os) (hk : TypeKind t k) (hx : x ≠ []) (o : RafsiOpt) :
    o ∈ os ↔ ∃ h, Trailing f l x k h ∧ o = opt s ⟨x, k, leading f x ++ x ++ h⟩ := by
  unfold getRafsiForRafsi at h
  obtain ⟨r, hr, h⟩ := bind_ok h
  obtain rfl := apostrophise_leading hr
  have hlast : ∀ c, idxLast (leading f x ++ x) = .ok c → x.getLast? = some c := by
    intro c hc
    have := idxLast_ok hc
    rwa [getLast?_append_ne _ hx] at this
  unfold opt Slot.count
  split at h
  all_goals (cases hk <;> dsimp only [Trailing])
  · cases l
    · simp at h; subst h; simp
    · simp at h
      obtain ⟨c, hc, h⟩ := bind_ok h
      have hc := hlast c hc
      cases hv : isVowel c with
      | false => simp [hv] at h; subst h; rw [isVowel_false] at hv; simp [hc, hv]
      | true => simp [hv] at h; subst h; rw [isVowel_iff] at hv; simp [hc, hv]
  · cases l
    · simp at h; subst h; simp
    · simp at h
      obtain ⟨c, hc, h⟩ := bind_ok h
      have hc := hlast c hc
      cases hv : isVowel c with
      | false => simp [hv] at h; subst h; rw [isVowel_false] at hv; simp [hc, hv]
      | true => simp [hv] at h; subst h; rw [isVowel_iff] at hv; simp [hc, hv]
  · cases l
    · simp at h; subst h; simp
    · simp at h
      obtain ⟨c, hc, h⟩ := bind_ok h
      have hc := hlast c hc
      cases hv : isVowel c with
      | false => simp [hv] at h; subst h; rw [isVowel_false] at hv; simp [hc, hv]
      | true => simp [hv] at h; subst h; rw [isVowel_iff] at hv; simp [hc, hv]
  · cases l <;> simp at h <;> subst h <;> simp
  · cases l <;> simp at h <;> subst h <;> simp
  · cases l <;> simp at h <;> subst h <;> simp
  · obtain ⟨n, hn, h⟩ : ∃ n, (∀ suf, Trailing f l x .exp suf → n =
          if s.consonants ≠ .cluster ∧ (ConsonantInitial (leading f x ++ x ++ suf) ∨
            (s.glides = true ∧ Onglide (leading f x ++ x ++ suf))) then 1 else 0) ∧
        (if l then Except.ok [(leading f x ++ x, n)]
        else if !f then .ok [(leading f x ++ x ++ s%"'y", n)]
        else .ok [(leading f x ++ x ++ s%"'", n)]) = Except.ok (ε := Err) os := by
      dsimp only at h
      by_cases hc : s.consonants ≠ .cluster
      · rw [if_pos hc] at h
        obtain ⟨c, hc', h⟩ := bind_ok h
        have hc' := idx_ok hc'
        have e1 : ∀ suf, ConsonantInitial (leading f x ++ x ++ suf) ↔ isConsonant c = true := by
          intro suf
          cases hw : leading f x ++ x with
          | nil => rw [hw] at hc'; cases hc'
          | cons a w => rw [hw] at hc'; simp at hc'; subst hc'; simp [ConsonantInitial, isConsonant_iff]
        have e2 : ∀ suf, Trailing f l x .exp suf → (Onglide (leading f x ++ x ++ suf) ↔ isGlide (leading f x ++ x) = true) := by
          intro suf hs
          have hs : suf = [] ∨ suf.head? = some '\'' := by
            rcases hs with ⟨h, -⟩ | ⟨h, -⟩ | ⟨h, -⟩ <;> simp [h]
          rw [← onglide_iff]
          match hw : leading f x ++ x with
          | [] => rw [hw] at hc'; cases hc'
          | [a] =>
            rcases hs with rfl | hs
            · simp
            · cases suf with
              | nil => simp
              | cons b suf => simp at hs; subst hs; simp [Onglide]; exact fun _ => by decide
          | a :: b :: w => simp [Onglide]
        split at h
        · rename_i hh
          refine ⟨1, fun suf hs => ?_, h⟩
          rw [if_pos]
          refine ⟨hc, ?_⟩
          rw [e1, e2 suf hs]
          simpa using hh
        · rename_i hh
          refine ⟨0, fun suf hs => ?_, h⟩
          rw [if_neg]
          rw [e1, e2 suf hs]
          simp at hh
          simp [hh.1]
          grind
      · rw [if_neg hc] at h
        exact ⟨0, fun suf _ => by rw [if_neg]; exact fun h => hc h.1, h⟩
    dsimp only [Trailing] at hn
    constructor
    · intro ho
      cases l
      · cases f
        · simp at h; subst h
          obtain rfl : o = _ := by simpa using ho
          exact ⟨s%"'y", by simp, by rw [hn s%"'y" (by simp)]; simp⟩
        · simp at h; subst h
          obtain rfl : o = _ := by simpa using ho
          exact ⟨s%"'", by simp, by rw [hn s%"'" (by simp)]; simp⟩
      · simp at h; subst h
        obtain rfl : o = _ := by simpa using ho
        exact ⟨[], by simp, by rw [hn [] (by simp)]; simp⟩
    · rintro ⟨suf, hs, rfl⟩
      rw [← hn suf hs]
      rcases hs with ⟨rfl, rfl, rfl⟩ | ⟨rfl, rfl, rfl⟩ | ⟨rfl, rfl⟩ <;> (simp at h; subst h; simp)
  · cases f <;> cases l <;> simp at h <;> subst h <;> simp <;> grind
  · cases f <;> cases l <;> simp at h <;> subst h <;> simp <;> grind
  · simp at h; subst h; simp
  · cases l <;> simp at h <;> subst h <;> simp <;> grind

/-! ## The rafsi of a component -/

theorem rafsiListTable_iff {s : Settings} {f l : Bool} {o : RafsiOpt} : ∀ {rs : List Str} {os : List RafsiOpt},
    rafsiListTable s f l rs = .ok os → (∀ r ∈ rs, Rafsi false r) →
    (o ∈ os ↔ ∃ x k h, x ∈ rs ∧ ShapeKind x k ∧ Trailing f l x k h ∧ o = opt s ⟨x, k, leading f x ++ x ++ h⟩) := by
  intro rs
  induction rs with
  | nil => intro os h _; cases h; simp
  | cons r rs ih =>
    intro os h hv
    have hr : Rafsi false r := hv r (by simp)
    obtain ⟨k, hk⟩ : ∃ k, ShapeKind r k := by
      have h1 := hr
      rw [← isValidRafsi_iff] at h1
      simp only [shapeKind_iff]
      unfold isValidRafsi at h1
      cases ht : rafsiTarmi r <;> simp [TypeKind] <;> simp [ht, Tarmi.score] at h1
    have hot : rafsiTarmi r ≠ .other := by
      intro e; rw [shapeKind_iff, e] at hk; exact hk
    unfold rafsiListTable at h
    rw [if_neg (by simp [hot])] at h
    obtain ⟨a, ha, h⟩ := bind_ok h
    obtain ⟨b, hb, h⟩ := bind_ok h
    cases h
    have hk1 := shapeKind_iff.1 hk
    have h1 := getRafsiForRafsi_iff ha hk1 (Clean.of_rafsi hr).ne o
    have h2 := ih hb (fun r' h' => hv r' (by simp [h']))
    rw [List.mem_append, h1, h2]
    constructor
    · rintro (⟨h, ht, e⟩ | ⟨x, k, h, hx, hk, ht, e⟩)
      · exact ⟨r, k, h, by simp, hk, ht, e⟩
      · exact ⟨x, k, h, by simp [hx], hk, ht, e⟩
    · rintro ⟨x, k', h, hx, hk', ht, e⟩
      rcases List.mem_cons.1 hx with rfl | hx
      · left
        have : k' = k := by
          rw [shapeKind_iff] at hk hk'
          revert hk hk'
          cases rafsiTarmi x <;> simp only [TypeKind] <;> first | exact fun h _ => h.elim | exact fun h1 h2 => h1.trans h2.symm
        subst this
        exact ⟨_, ht, e⟩
      · exact .inr ⟨x, k', h, hx, hk', ht, e⟩

theorem strip_dashes {x : Str} (h : '-' ∉ x) (i j : Nat) :
    stripBoth (· == '-') (List.replicate i '-' ++ x ++ List.replicate j '-') = x := by
  rw [List.append_assoc, stripBoth_skip (by simp)]
  unfold stripBoth
  by_cases hx : x = []
  · subst hx; simp
  · have h1 : (x ++ List.replicate j '-').dropWhile (· == '-') = x ++ List.replicate j '-' := by
      cases x with
      | nil => exact absurd rfl hx
      | cons a x =>
        have : a ≠ '-' := by rintro rfl; simp at h
        simp [this]
    rw [h1, List.reverse_append, List.dropWhile_append_of_pos (by simp)]
    have h2 : x.reverse.dropWhile (· == '-') = x.reverse := by
      cases hr : x.reverse with
      | nil => rfl
      | cons a y =>
        have : a ∈ x := by rw [← List.mem_reverse, hr]; simp
        have : a ≠ '-' := by rintro rfl; exact h this
        simp [this]
    rw [h2, List.reverse_reverse]

theorem dashed_last {v x : Str} (h : Dashed v x) : v.getLast? = some '-' := by
  obtain ⟨-, i, j, rfl⟩ := h
  rw [List.getLast?_append]
  simp [List.replicate_succ']

theorem dashed_head {v x : Str} (h : Dashed v x) : v.head? = some '-' := by
  obtain ⟨-, i, j, rfl⟩ := h
  simp [List.replicate_succ]

theorem dashed_strip {v x : Str} (h : Dashed v x) : stripBoth (· == '-') v = x := by
  obtain ⟨hx, i, j, rfl⟩ := h
  exact strip_dashes hx _ _

theorem cut_last {v x : Str} {j : Nat} (h : v = x ++ List.replicate (j + 1) '-') : v.getLast? = some '-' := by
  simp [h, List.replicate_succ']

theorem cut_strip {v x : Str} {j : Nat} (h : v = x ++ List.replicate (j + 1) '-') (hx : '-' ∉ x) : stripBoth (· == '-') v = x := by
  have := strip_dashes hx 0 (j + 1)
  rw [h]
  simpa using this

theorem letters_no_dash {x : Str} (h : ∀ c ∈ x, Vowel c ∨ Consonant c ∨ c = '\'') : '-' ∉ x := by
  intro hm
  have := letter_ne_dash (h _ hm)
  exact this rfl

theorem wordType_iff {b : Build} {s : Settings} {v : Str} {t : BType} : WordType b s v t ↔
    ∃ ps, (program b).analyse { yHyphens := s.yHyphens, expRafsi := s.expRafsi, allowMz := s.allowMz } v = .ok (t, ps) := Iff.rfl

theorem usable_dash {b : Build} {s : Settings} {v x : Str} {k : Kind} (h : Usable b s v x k)
    (hl : v.getLast? = some '-') (hv : stripBoth (· == '-') v = y) :
    x = y ∧ ((v.head? = some '-' ∧ y ≠ [] →
      (Rafsi s.allowMz x ∧ ShapeKind x k) ∨ (shapeScore x = 0 ∧ WordType b s x .zihevla ∧ k = .long) ∨
      (shapeScore x = 0 ∧ s.expRafsi = true ∧ (∀ t, ¬ WordType b s x t) ∧
        checkZihevlaOrRafsi (program b) false s.yHyphens s.expRafsi s.allowMz x = .ok .rafsi ∧ k = .exp)) ∧
      (v.head? ≠ some '-' → (WordType b s (x ++ s%"a") .gismu ∨ WordType b s (x ++ s%"a") .zihevla) ∧ k = .short ∧
        (6 ≤ x.length → (∃ c, x.getLast? = some c ∧ Consonant c) → ∀ ps, jvokaha2 s.yHyphens s.allowMz x ≠ .ok ps))) := by
  cases h with
  | listed h => exact absurd hl h
  | stem h => exact absurd hl h
  | word h => exact absurd hl h
  | rafsi h h1 h2 =>
    refine ⟨by rw [← hv, dashed_strip h], fun _ => .inl ⟨h1, h2⟩, fun hh => absurd (dashed_head h) hh⟩
  | zihevla h h1 h2 =>
    refine ⟨by rw [← hv, dashed_strip h], fun _ => .inr (.inl ⟨h1, h2, rfl⟩), fun hh => absurd (dashed_head h) hh⟩
  | experimental h h1 h2 h3 h4 =>
    refine ⟨by rw [← hv, dashed_strip h], fun _ => .inr (.inr ⟨h1, h2, h3, h4, rfl⟩), fun hh => absurd (dashed_head h) hh⟩
  | cut h h0 h1 h2 =>
    have e := cut_strip h h0
    refine ⟨by rw [← hv, e], fun hh => ?_, fun _ => ⟨h1, rfl, h2⟩⟩
    exfalso
    obtain ⟨h3, h4⟩ := hh
    rw [← hv, e] at h4
    rw [h] at h3
    cases x with
    | nil => exact h4 rfl
    | cons a x => simp at h3; subst h3; simp at h0

theorem shapeScore_other {x : Str} : shapeScore x = 0 ↔ rafsiTarmi x = .other ∨ rafsiTarmi x = .hyphen := by
  rw [shapeScore_tarmi]
  cases rafsiTarmi x <;> simp [Tarmi.score]

theorem rafsiTarmi_kind {x : Str} (h1 : rafsiTarmi x ≠ .other) (h2 : rafsiTarmi x ≠ .hyphen) : ∃ k, ShapeKind x k := by
  simp only [shapeKind_iff]
  cases ht : rafsiTarmi x <;> simp [TypeKind]
  · exact h2 ht
  · exact h1 ht

theorem rafsiListShort_iff {b : Build} {s : Settings} {f l : Bool} {x : Str} {os : List RafsiOpt} {o : RafsiOpt}
    (h : rafsiListShort (program b) s f l x = .ok os) (hx : x ≠ []) :
    (WordType b s (x ++ s%"a") .gismu ∨ WordType b s (x ++ s%"a") .zihevla) ∧
    (6 ≤ x.length → (∃ c, x.getLast? = some c ∧ Consonant c) → ∀ ps, jvokaha2 s.yHyphens s.allowMz x ≠ .ok ps) ∧
    (o ∈ os ↔ ∃ h, Trailing f l x .short h ∧ o = opt s ⟨x, .short, leading f x ++ x ++ h⟩) := by
  unfold rafsiListShort at h
  obtain ⟨⟨t, ps⟩, ha, h⟩ := bind_ok h
  have ha : (program b).analyse { yHyphens := s.yHyphens, expRafsi := s.expRafsi, allowMz := s.allowMz } (x ++ s%"a") = .ok (t, ps) := by
    unfold catchNotBrivla at ha
    split at ha
    · cases ha
    · exact ha
  dsimp only at h
  split at h
  · cases h
  · rename_i ht
    refine ⟨?_, ?_⟩
    · cases t <;> simp at ht ⊢
      · exact .inl ⟨ps, ha⟩
      · exact .inr ⟨ps, ha⟩
    · obtain ⟨c, hc, h⟩ := bind_ok h
      have hc := idxLast_ok hc
      split at h
      · rename_i h6
        split at h
        · cases h
        · rename_i e; exact ⟨fun _ _ ps => (by rw [e]; simp), getRafsiForRafsi_iff h rfl hx o⟩
        · rename_i e; exact ⟨fun _ _ ps => (by rw [e]; simp), getRafsiForRafsi_iff h rfl hx o⟩
        · cases h
      · rename_i h6
        refine ⟨fun h1 ⟨d, hd, hdc⟩ => ?_, getRafsiForRafsi_iff h rfl hx o⟩
        rw [hc] at hd; cases hd
        exfalso; apply h6
        simp [h1, (isConsonant_iff _).2 hdc]

theorem rafsiListRafsi_iff {b : Build} {s : Settings} {f l : Bool} {x : Str} {os : List RafsiOpt} {o : RafsiOpt}
    (h : rafsiListRafsi (program b) s f l x = .ok os) (hx : x ≠ []) :
    o ∈ os ↔ ∃ k h, ((Rafsi s.allowMz x ∧ ShapeKind x k) ∨ (shapeScore x = 0 ∧ WordType b s x .zihevla ∧ k = .long) ∨
      (shapeScore x = 0 ∧ s.expRafsi = true ∧ (∀ t, ¬ WordType b s x t) ∧
        checkZihevlaOrRafsi (program b) false s.yHyphens s.expRafsi s.allowMz x = .ok .rafsi ∧ k = .exp)) ∧
      Trailing f l x k h ∧ o = opt s ⟨x, k, leading f x ++ x ++ h⟩ := by
  unfold rafsiListRafsi at h
  dsimp only at h
  split at h
  · rename_i ht
    have h0 : shapeScore x = 0 := shapeScore_other.2 (.inl ht)
    have hnr : ∀ {mz}, ¬ Rafsi mz x := fun hr => (rafsi_tarmi hr).1 ht
    obtain ⟨t, hk, h⟩ := bind_ok h
    unfold rafsiKind at hk
    split at hk
    · rename_i bt ps ha
      split at hk
      · rename_i hz
        cases hk
        subst hz
        rw [getRafsiForRafsi_iff h rfl hx o]
        constructor
        · rintro ⟨h, h1, h2⟩; exact ⟨.long, h, .inr (.inl ⟨h0, ⟨ps, ha⟩, rfl⟩), h1, h2⟩
        · rintro ⟨k, h, (⟨hr, -⟩ | ⟨-, -, rfl⟩ | ⟨-, -, hn, -⟩), h1, h2⟩
          · exact absurd hr hnr
          · exact ⟨h, h1, h2⟩
          · exact absurd ⟨ps, ha⟩ (hn _)
      · cases hk
    · rename_i ha
      have hw : ∀ t, ¬ WordType b s x t := by
        rintro t ⟨ps, h⟩
        rw [program_analyse] at ha
        rw [ha] at h; cases h
      split at hk
      · rename_i hex
        split at hk <;> cases hk
        rename_i hz
        rw [getRafsiForRafsi_iff h rfl hx o]
        constructor
        · rintro ⟨h, h1, h2⟩; exact ⟨.exp, h, .inr (.inr ⟨h0, hex, hw, hz, rfl⟩), h1, h2⟩
        · rintro ⟨k, h, (⟨hr, -⟩ | ⟨-, hn, -⟩ | ⟨-, -, -, -, rfl⟩), h1, h2⟩
          · exact absurd hr hnr
          · exact absurd hn (hw _)
          · exact ⟨h, h1, h2⟩
      · cases hk
    · cases hk
  · rename_i ht
    split at h
    · cases h
    · rename_i hv
      have hv : isValidRafsi s.allowMz x = true := by simpa using hv
      rw [isValidRafsi_iff] at hv
      obtain ⟨-, hh⟩ := rafsi_tarmi hv
      obtain ⟨k, hk⟩ := rafsiTarmi_kind ht hh
      have h0 : shapeScore x ≠ 0 := by rw [Ne, shapeScore_other]; simp [ht, hh]
      rw [getRafsiForRafsi_iff h (shapeKind_iff.1 hk) hx o]
      constructor
      · rintro ⟨h, h1, h2⟩; exact ⟨k, h, .inl ⟨hv, hk⟩, h1, h2⟩
      · rintro ⟨k', h, (⟨-, hk'⟩ | ⟨hn, -⟩ | ⟨hn, -⟩), h1, h2⟩
        · have : k' = k := by
            rw [shapeKind_iff] at hk hk'
            revert hk hk'
            cases rafsiTarmi x <;> simp only [TypeKind] <;> first | exact fun h _ => h.elim | exact fun h1 h2 => h2.trans h1.symm
          subst this
          exact ⟨h, h1, h2⟩
        · exact absurd hn h0
        · exact absurd hn h0

theorem rafsiListWord_iff {b : Build} {s : Settings} {f l : Bool} {v : Str} {os : List RafsiOpt} {o : RafsiOpt}
    (h : rafsiListWord (program b) s f l v = .ok os) (hv : v.getLast? ≠ some '-') :
    o ∈ os ↔ ∃ x k h, Usable b s v x k ∧ Trailing f l x k h ∧ o = opt s ⟨x, k, leading f x ++ x ++ h⟩ := by
  unfold rafsiListWord at h
  split at h
  · cases h
  · rename_i hol
    have hol : isOnlyLojban v = true := by simpa using hol
    have hlet := isOnlyLojban_letters hol
    have hne : v ≠ [] := by rintro rfl; simp [isOnlyLojban] at hol
    obtain ⟨short, hshort, h⟩ := bind_ok h
    obtain ⟨bt, hbt, h⟩ := bind_ok h
    obtain ⟨four, hfour, h⟩ := bind_ok h
    obtain ⟨long, hlong, h⟩ := bind_ok h
    cases h
    have hbt : ∀ t, bt = some t ↔ WordType b s v t := by
      intro t
      split at hbt
      · rename_i t' ps ha
        cases hbt
        constructor
        · rintro ⟨⟩; exact ⟨ps, ha⟩
        · rintro ⟨ps', h'⟩
          rw [program_analyse, h'] at ha
          cases ha; rfl
      · rename_i ha
        cases hbt
        constructor
        · rintro ⟨⟩
        · rintro ⟨ps', h'⟩
          rw [program_analyse, h'] at ha
          cases ha
      · cases hbt
    have h1 := rafsiListTable_iff (o := o) hshort (fun r hr => isValidRafsi_iff.1 (table_known r hr).2)
    have h2 : o ∈ four ↔ ∃ x c h, WordType b s v .gismu ∧ v = x ++ [c] ∧ Trailing f l x .short h ∧
        o = opt s ⟨x, .short, leading f x ++ x ++ h⟩ := by
      split at hfour
      · rename_i hg
        have hg := (hbt _).1 hg
        obtain ⟨ps, ha⟩ := hg
        obtain ⟨-, -, h3, c, hc, -⟩ := analyse_clean ha hlet (.inl rfl)
        have e := dropLastN_one_append hc
        have hne : dropLastN v 1 ≠ [] := by intro e'; rw [e', List.nil_append] at e; rw [e] at h3; simp at h3
        rw [getRafsiForRafsi_iff hfour rfl hne]
        constructor
        · rintro ⟨h, h1, h2⟩; exact ⟨_, c, h, ⟨ps, ha⟩, e, h1, h2⟩
        · rintro ⟨x, c', h, -, e', h1, h2⟩
          rw [e'] at e
          obtain ⟨e, -⟩ := List.append_inj' e rfl
          rw [e', ← e]
          exact ⟨h, h1, h2⟩
      · rename_i hg
        cases hfour
        constructor
        · rintro ⟨⟩
        · rintro ⟨_, _, _, h, -⟩; exact absurd ((hbt _).2 h) hg
    have h3 : o ∈ long ↔ ∃ h, (WordType b s v .gismu ∨ WordType b s v .zihevla) ∧ Trailing f l v .long h ∧
        o = opt s ⟨v, .long, leading f v ++ v ++ h⟩ := by
      split at hlong
      · rename_i hg
        rw [getRafsiForRafsi_iff hlong rfl hne]
        rw [hbt, hbt] at hg
        simp [hg]
      · rename_i hg
        cases hlong
        rw [hbt, hbt] at hg
        simp only [List.not_mem_nil, false_iff]
        rintro ⟨_, h, -⟩; exact hg h
    rw [List.mem_append, List.mem_append, h1, h2, h3]
    constructor
    · rintro ((⟨x, k, h, hx, hk, ht, e⟩ | ⟨x, c, h, hg, hc, ht, e⟩) | ⟨h, hg, ht, e⟩)
      · obtain ⟨rs, hrs, hx⟩ := lookup_table.1 hx
        exact ⟨x, k, h, .listed hv hrs hx hk, ht, e⟩
      · exact ⟨x, .short, h, .stem hv hg hc, ht, e⟩
      · exact ⟨v, .long, h, .word hv hg, ht, e⟩
    · rintro ⟨x, k, h, hu, ht, e⟩
      cases hu with
      | listed _ hrs hx hk => exact .inl (.inl ⟨x, k, h, lookup_table.2 ⟨_, hrs, hx⟩, hk, ht, e⟩)
      | stem _ hg hc => exact .inl (.inr ⟨x, _, h, hg, hc, ht, e⟩)
      | word _ hg => exact .inr ⟨h, hg, ht, e⟩
      | rafsi h => exact absurd (dashed_last h) hv
      | zihevla h => exact absurd (dashed_last h) hv
      | experimental h => exact absurd (dashed_last h) hv
      | cut h => exact absurd (cut_last h) hv

theorem dashes_front {a x : Str} (ha : a.all (· == '-') = true) (hx : '-' ∉ x) (hne : x ≠ []) {t : Str}
    (h : (a ++ x ++ t).head? = some '-') : ∃ i, a = List.replicate (i + 1) '-' := by
  cases a with
  | nil =>
    cases x with
    | nil => exact absurd rfl hne
    | cons c x => simp at h; subst h; simp at hx
  | cons c a => exact ⟨a.length, all_dash ha⟩

theorem rafsiListFor_iff {b : Build} {s : Settings} {f l : Bool} {v : Str} {os : List RafsiOpt} {o : RafsiOpt}
    (h : rafsiListFor (program b) s f l v = .ok os) :
    o ∈ os ↔ ∃ z : Slot, Usable b s v z.rafsi z.kind ∧ z.Written f l ∧ o = opt s z := by
  have key : o ∈ os ↔ ∃ x k h, Usable b s v x k ∧ Trailing f l x k h ∧ o = opt s ⟨x, k, leading f x ++ x ++ h⟩ := by
    unfold rafsiListFor at h
    obtain ⟨c, hc, h⟩ := bind_ok h
    have hc := idxLast_ok hc
    split at h
    · rename_i hd
      subst hd
      obtain ⟨first, hfirst, h'⟩ := bind_ok h
      clear h
      have h := h'; clear h'
      have hfirst : v.head? = some first := by
        have := idx_ok hfirst
        cases v with
        | nil => cases this
        | cons => simpa using this
      dsimp only at h
      obtain ⟨a, t, e, ha, hb, hbne⟩ := stripBoth_split (p := (· == '-')) v
      generalize hx : stripBoth (· == '-') v = x at h e
      split at h
      · cases h
      · rename_i hol
        have hol : isOnlyLojban x = true := by simpa using hol
        have hlet := isOnlyLojban_letters hol
        have hnd := letters_no_dash hlet
        have hne : x ≠ [] := by rintro rfl; simp [isOnlyLojban] at hol
        obtain ⟨d, hd, h'⟩ := bind_ok h
        clear h
        have h := h'; clear h'
        have hd := idxLast_ok hd
        have htail : ∃ j, t = List.replicate (j + 1) '-' := by
          have hb' : t ≠ [] := by
            refine hbne '-' hc (by decide) ⟨d, ?_, ?_⟩
            · have := getLast_mem hd
              rw [e]; simp [this]
            · have := letter_ne_dash (hlet d (getLast_mem hd))
              simpa using this
          cases t with
          | nil => exact absurd rfl hb'
          | cons c t => exact ⟨t.length, all_dash hb⟩
        obtain ⟨j, rfl⟩ := htail
        split at h
        · cases h
        · split at h
          · rename_i hf
            have hh : v.head? ≠ some '-' := by rw [hfirst]; simpa using hf
            obtain ⟨h1, h2, h3⟩ := rafsiListShort_iff (o := o) h hne
            have hcut : v = x ++ List.replicate (j + 1) '-' := by
              cases a with
              | nil => simpa using e
              | cons c a =>
                simp at ha
                rw [e, ha.1] at hh
                simp at hh
            rw [h3]
            constructor
            · rintro ⟨h, ht, e⟩; exact ⟨x, .short, h, .cut hcut hnd h1 h2, ht, e⟩
            · rintro ⟨y, k, h', hu, ht, e⟩
              obtain ⟨rfl, -, h5⟩ := usable_dash hu hc hx
              obtain ⟨-, rfl, -⟩ := h5 hh
              exact ⟨h', ht, e⟩
          · rename_i hf
            obtain rfl : first = '-' := by simpa using hf
            have hdash : Dashed v x := by
              rw [e] at hfirst
              obtain ⟨i, rfl⟩ := dashes_front ha hnd hne hfirst
              exact ⟨hnd, i, j, e⟩
            rw [rafsiListRafsi_iff h hne]
            constructor
            · rintro ⟨k, h, (⟨hr, hk⟩ | ⟨h0, hw, rfl⟩ | ⟨h0, hex, hw, hz, rfl⟩), ht, e⟩
              · exact ⟨x, k, h, .rafsi hdash hr hk, ht, e⟩
              · exact ⟨x, .long, h, .zihevla hdash h0 hw, ht, e⟩
              · exact ⟨x, .exp, h, .experimental hdash h0 hex hw hz, ht, e⟩
            · rintro ⟨y, k, h, hu, ht, eo⟩
              obtain ⟨rfl, h4, -⟩ := usable_dash hu hc hx
              exact ⟨k, _, h4 ⟨hfirst, hne⟩, ht, eo⟩
    · rename_i hd
      exact rafsiListWord_iff h (by rw [hc]; simpa using hd)
  rw [key]
  constructor
  · rintro ⟨x, k, h, hu, ht, rfl⟩
    exact ⟨⟨x, k, _⟩, hu, ⟨h, rfl, ht⟩, rfl⟩
  · rintro ⟨z, hu, ⟨h, e, ht⟩, rfl⟩
    refine ⟨z.rafsi, z.kind, h, hu, ht, ?_⟩
    rw [← e]

/-! ## `NoLujvoFoundError` from a component -/

theorem bind_fails {α β : Type} {e : Err} {x : Except Err α} {f : α → Except Err β} (h : (x >>= f) = .error e) :
    x = .error e ∨ ∃ a, x = .ok a ∧ f a = .error e := by
  cases x with
  | error e' => left; rw [error_bind] at h; cases h; rfl
  | ok a => right; exact ⟨a, rfl, h⟩

theorem Errs.not {α : Type} {E : List Err} {x : Except Err α} {e : Err} (h : Errs E x) (he : e ∉ E) : x ≠ .error e :=
  fun hx => he (h e hx)

theorem analyse_not_noLujvo (b : Build) (s : Settings) (w : Str) : (program b).analyse s w ≠ .error .noLujvo :=
  (errs_analyseBrivla b s w).not (by cases b <;> simp [analyseErrs, nameErrs])

theorem rafsiListWord_not {b : Build} {s : Settings} {f l : Bool} {v : Str} : rafsiListWord (program b) s f l v ≠ .error .noLujvo := by
  intro h
  unfold rafsiListWord at h
  split at h
  · cases h
  · rcases bind_fails h with h | ⟨short, -, h⟩
    · exact (errs_rafsiListTable (fun r hr => by rcases (table_known r hr).1 with h | h | h | h <;> simp [h])).not (by simp) h
    · rcases bind_fails h with h | ⟨bt, -, h⟩
      · split at h
        · cases h
        · cases h
        · rename_i he
          cases h
          exact analyse_not_noLujvo _ _ _ he
      · rcases bind_fails h with h | ⟨four, -, h⟩
        · split at h
          · exact (errs_getRafsiForRafsi (by simp) (by simp)).not (by simp) h
          · cases h
        · rcases bind_fails h with h | ⟨long, -, h⟩
          · split at h
            · exact (errs_getRafsiForRafsi (by simp) (by simp)).not (by simp) h
            · cases h
          · cases h

theorem rafsiListShort_not {b : Build} {s : Settings} {f l : Bool} {x : Str}
    (h : rafsiListShort (program b) s f l x = .error .noLujvo) :
    ¬ ((WordType b s (x ++ s%"a") .gismu ∨ WordType b s (x ++ s%"a") .zihevla) ∧
      (6 ≤ x.length → (∃ c, x.getLast? = some c ∧ Consonant c) → ∀ ps, jvokaha2 s.yHyphens s.allowMz x ≠ .ok ps)) := by
  rintro ⟨hw, hk⟩
  obtain ⟨t, ps, ha, ht⟩ : ∃ t ps, (program b).analyse { yHyphens := s.yHyphens, expRafsi := s.expRafsi, allowMz := s.allowMz }
      (x ++ s%"a") = .ok (t, ps) ∧ (t = .gismu ∨ t = .zihevla) := by
    rcases hw with ⟨ps, h⟩ | ⟨ps, h⟩
    · exact ⟨_, ps, h, .inl rfl⟩
    · exact ⟨_, ps, h, .inr rfl⟩
  unfold rafsiListShort at h
  rw [ha] at h
  unfold catchNotBrivla at h
  rw [ok_bind] at h
  dsimp only at h
  rw [if_neg (by rcases ht with rfl | rfl <;> simp)] at h
  rcases bind_fails h with h | ⟨c, hc, h⟩
  · exact (errs_idxLast (E := [.index]) (by simp) _).not (by simp) h
  · have hc := idxLast_ok hc
    split at h
    · rename_i h6
      simp at h6
      split at h
      · rename_i ps' hj
        exact hk h6.1 ⟨c, hc, (isConsonant_iff _).1 h6.2⟩ _ hj
      · exact (errs_getRafsiForRafsi (by simp) (by simp)).not (by simp) h
      · exact (errs_getRafsiForRafsi (by simp) (by simp)).not (by simp) h
      · rename_i e _ _ hj
        cases h
        exact (errs_jvokaha2 _ _ _).not (by simp [kahaErrs]) hj
    · exact (errs_getRafsiForRafsi (by simp) (by simp)).not (by simp) h

theorem rafsiListRafsi_not {b : Build} {s : Settings} {f l : Bool} {x : Str}
    (h : rafsiListRafsi (program b) s f l x = .error .noLujvo) (k : Kind) :
    ¬ ((Rafsi s.allowMz x ∧ ShapeKind x k) ∨ (shapeScore x = 0 ∧ WordType b s x .zihevla ∧ k = .long) ∨
      (shapeScore x = 0 ∧ s.expRafsi = true ∧ (∀ t, ¬ WordType b s x t) ∧
        checkZihevlaOrRafsi (program b) false s.yHyphens s.expRafsi s.allowMz x = .ok .rafsi ∧ k = .exp)) := by
  unfold rafsiListRafsi at h
  dsimp only at h
  split at h
  · rename_i ht
    have hnr : ∀ {mz}, ¬ Rafsi mz x := fun hr => (rafsi_tarmi hr).1 ht
    rcases bind_fails h with h | ⟨t, ht, h⟩
    · rintro (⟨h1, -⟩ | ⟨-, ⟨ps, ha⟩, -⟩ | ⟨-, hex, hw, hz, -⟩)
      · exact hnr h1
      · unfold rafsiKind at h
        rw [program_analyse, ha] at h
        simp at h
      · unfold rafsiKind at h
        split at h
        · rename_i ha; exact hw _ ⟨_, ha⟩
        · rw [if_pos hex, hz] at h
          simp at h
        · rename_i he
          cases h
          exact analyse_not_noLujvo _ _ _ he
    · exfalso
      refine (errs_getRafsiForRafsi ?_ ?_).not (by simp) h <;> rcases rafsiKind_type ht with rfl | rfl <;> simp
  · rename_i ht
    split at h
    · cases h
    · rename_i hv
      have hv : isValidRafsi s.allowMz x = true := by simpa using hv
      rw [isValidRafsi_iff] at hv
      exact absurd h ((errs_getRafsiForRafsi (by simpa using (rafsi_tarmi hv).2) (by simpa using ht)).not (by simp))

/-- A component that makes `get_lujvo` give up has no rafsi. -/
theorem rafsiListFor_not {b : Build} {s : Settings} {f l : Bool} {v : Str}
    (h : rafsiListFor (program b) s f l v = .error .noLujvo) (x : Str) (k : Kind) : ¬ Usable b s v x k := by
  unfold rafsiListFor at h
  rcases bind_fails h with h | ⟨c, hc, h⟩
  · exact absurd h ((errs_idxLast (E := [.index]) (by simp) _).not (by simp))
  have hc := idxLast_ok hc
  split at h
  · rename_i hd
    subst hd
    rcases bind_fails h with h | ⟨first, hfirst, h⟩
    · exact absurd h ((errs_idx (E := [.index]) (by simp) _ _).not (by simp))
    have hfirst : v.head? = some first := by
      have := idx_ok hfirst
      cases v with
      | nil => cases this
      | cons => simpa using this
    dsimp only at h
    generalize hx : stripBoth (· == '-') v = y at h
    split at h
    · cases h
    · rename_i hol
      have hol : isOnlyLojban y = true := by simpa using hol
      have hlet := isOnlyLojban_letters hol
      have hne : y ≠ [] := by rintro rfl; simp [isOnlyLojban] at hol
      rcases bind_fails h with h | ⟨d, hd, h⟩
      · exact absurd h ((errs_idxLast (E := [.index]) (by simp) _).not (by simp))
      split at h
      · cases h
      · intro hu
        obtain ⟨rfl, h4, h5⟩ := usable_dash hu hc hx
        split at h
        · rename_i hf
          obtain ⟨h1, -, h2⟩ := h5 (by rw [hfirst]; simpa using hf)
          exact rafsiListShort_not h ⟨h1, h2⟩
        · rename_i hf
          have hf : first = '-' := by simpa using hf
          exact rafsiListRafsi_not h k (h4 ⟨by rw [hfirst, hf], hne⟩)
  · exact absurd h rafsiListWord_not

/-! ## The slots of a component -/

theorem rafsiListFor_letters {b : Build} {s : Settings} {f l : Bool} {v : Str} {os : List RafsiOpt}
    (h : rafsiListFor (program b) s f l v = .ok os) :
    (v.getLast? ≠ some '-' → ∀ c ∈ v, Vowel c ∨ Consonant c ∨ c = '\'') ∧
    (v.getLast? = some '-' → ∀ x, stripBoth (· == '-') v = x → (∀ c ∈ x, Vowel c ∨ Consonant c ∨ c = '\'') ∧
      x ≠ [] ∧ x.getLast? ≠ some '\'') := by
  unfold rafsiListFor at h
  obtain ⟨c, hc, h⟩ := bind_ok h
  have hc := idxLast_ok hc
  split at h
  · rename_i hd
    subst hd
    refine ⟨fun hn => absurd hc hn, fun _ x hx => ?_⟩
    obtain ⟨first, -, h⟩ := bind_ok h
    dsimp only at h
    rw [hx] at h
    split at h
    · cases h
    · rename_i hol
      have hol : isOnlyLojban x = true := by simpa using hol
      obtain ⟨d, hd, h⟩ := bind_ok h
      have hd := idxLast_ok hd
      split at h
      · cases h
      · rename_i hq
        exact ⟨isOnlyLojban_letters hol, by rintro rfl; simp at hd, by rw [hd]; simpa using hq⟩
  · rename_i hd
    refine ⟨fun _ => ?_, fun hn => ?_⟩
    · unfold rafsiListWord at h
      split at h
      · cases h
      · rename_i hol
        exact isOnlyLojban_letters (by simpa using hol)
    · rw [hc] at hn; cases hn; exact absurd rfl hd

theorem usable_clean {b : Build} {s : Settings} {f l : Bool} {v x : Str} {k : Kind} {os : List RafsiOpt}
    (h : rafsiListFor (program b) s f l v = .ok os) (hu : Usable b s v x k) : Clean x := by
  obtain ⟨hw, hd⟩ := rafsiListFor_letters h
  cases hu with
  | listed _ hrs hx => exact .of_rafsi (isValidRafsi_iff.1 (table_shapes _ hrs _ hx).2)
  | @stem _ c hv hg e =>
    obtain ⟨ps, ha⟩ := hg
    obtain ⟨h1, h2, h3, c', hc', hcv⟩ := analyse_clean ha (hw hv) (.inl rfl)
    have hgis : Gismu s.allowMz v := by
      obtain ⟨n, hn, hacc⟩ := analyseR_ok (R := recN b (budget v.length)) ha
      obtain ⟨-, rfl⟩ := normalise_ok hn
      rw [reading_letters (hw hv)] at hacc
      generalize ht : BType.gismu = t at hacc
      cases hacc with
      | gismu _ _ hg => exact isGismu_iff.1 hg
      | zihevla => cases ht
      | kaha => split at ht <;> cases ht
      | parts => split at ht <;> cases ht
    have hq : x.getLast? ≠ some '\'' := by
      intro hq
      rw [e] at hgis
      generalize hxc : x ++ [c] = xc at hgis
      obtain ⟨u, rfl⟩ := List.getLast?_eq_some_iff.1 hq
      cases hgis with
      | @cvccv p1 p2 p3 p4 p5 _ _ h' _ =>
        have := (List.append_inj' (s₁ := u ++ ['\'']) (s₂ := [p1, p2, p3, p4]) (t₂ := [p5]) hxc rfl).1
        have := (List.append_inj' (s₁ := u) (s₂ := [p1, p2, p3]) (t₂ := [p4]) this rfl).2
        simp at this; subst this; exact absurd h'.2.1 (by decide)
      | @ccvcv p1 p2 p3 p4 p5 _ _ h' _ =>
        have := (List.append_inj' (s₁ := u ++ ['\'']) (s₂ := [p1, p2, p3, p4]) (t₂ := [p5]) hxc rfl).1
        have := (List.append_inj' (s₁ := u) (s₂ := [p1, p2, p3]) (t₂ := [p4]) this rfl).2
        simp at this; subst this; exact absurd h' (by decide)
    rw [e] at h1 h3
    exact clean_append_vowel h1 (by rintro rfl; simp at h3) hq
  | word hv hg =>
    rcases hg with ⟨ps, ha⟩ | ⟨ps, ha⟩
    · exact (analyse_clean ha (hw hv) (.inl rfl)).1
    · exact (analyse_clean ha (hw hv) (.inr rfl)).1
  | rafsi _ hr _ => exact .of_rafsi hr
  | zihevla hdash _ ha =>
    obtain ⟨ps, ha⟩ := ha
    exact (analyse_clean ha (hd (dashed_last hdash) x (dashed_strip hdash)).1 (.inr rfl)).1
  | experimental hdash h0 hex hw' hz =>
    obtain ⟨hlet, hne, hq⟩ := hd (dashed_last hdash) x (dashed_strip hdash)
    obtain ⟨w1, -, w3, w4, w5⟩ := checkZihevlaOrRafsi_wf hz
    exact clean_of_wf w1 w3 w4 w5 hne
  | cut e hnd hg _ =>
    obtain ⟨hlet, hne, hq⟩ := hd (cut_last e) x (cut_strip e hnd)
    have hlet' : ∀ c ∈ x ++ s%"a", Vowel c ∨ Consonant c ∨ c = '\'' := by
      intro c hc
      rcases List.mem_append.1 hc with hc | hc
      · exact hlet c hc
      · simp at hc; subst hc; exact .inl (by decide)
    rcases hg with ⟨ps, ha⟩ | ⟨ps, ha⟩
    · exact clean_append_vowel (analyse_clean ha hlet' (.inl rfl)).1 hne hq
    · exact clean_append_vowel (analyse_clean ha hlet' (.inr rfl)).1 hne hq

theorem trailing_hyphen {f l : Bool} {x h : Str} {k : Kind} (ht : Trailing f l x k h) : h.all isHyphenLetter = true := by
  have : h = [] ∨ h = s%"y" ∨ h = s%"'y" ∨ h = s%"'" := by
    cases k <;> simp only [Trailing] at ht <;> grind
  exact isHyphen_all this

theorem usable_form {b : Build} {s : Settings} {f l : Bool} {v : Str} {z : Slot} {os : List RafsiOpt}
    (h : rafsiListFor (program b) s f l v = .ok os) (hu : Usable b s v z.rafsi z.kind) (hw : z.Written f l) :
    Form s f l z.rafsi (opt s z) ∧ RafsiOf RAFSI_LIST s.allowMz v z.rafsi := by
  have hcl := usable_clean h hu
  obtain ⟨x, hf, hx⟩ := rafsiListFor_form h ((rafsiListFor_iff h).2 ⟨z, hu, hw, rfl⟩)
  obtain ⟨suf, e, ht⟩ := hw
  have h1 : stripHyphens z.text = z.rafsi := by
    rw [e]
    refine hcl.strip ?_ (trailing_hyphen ht)
    rw [leading_prefixOf]
    rcases prefixOf_cases f z.rafsi with h | h <;> rw [h] <;> rfl
  have h2 := hf.strip
  unfold opt at h2
  rw [h1] at h2
  subst h2
  exact ⟨hf, hx⟩

/-- The choices the search makes are the ways to represent the components. -/
theorem rafsiListListFrom_iff {b : Build} {s : Settings} {N : Nat} : ∀ {vs : List Str} {i : Nat} {ll : List (List RafsiOpt)},
    rafsiListListFrom (program b) s N i vs = .ok ll → ∀ rs : List RafsiOpt,
      (Picks ll rs ↔ ∃ zs, Represents b s N i vs zs ∧ rs = zs.map (opt s)) := by
  intro vs
  induction vs with
  | nil =>
    intro i ll h rs
    cases h
    constructor
    · rintro ⟨⟩; exact ⟨[], .nil, rfl⟩
    · rintro ⟨zs, h, rfl⟩; cases h; exact .nil
  | cons v vs ih =>
    intro i ll h rs
    unfold rafsiListListFrom at h
    obtain ⟨a, ha, h⟩ := bind_ok h
    obtain ⟨l, hl, h⟩ := bind_ok h
    cases h
    constructor
    · intro hp
      cases hp with
      | cons ho hp =>
        obtain ⟨z, hu, hw, rfl⟩ := (rafsiListFor_iff ha).1 ho
        obtain ⟨zs, hz, rfl⟩ := (ih hl _).1 hp
        exact ⟨z :: zs, .cons hu hw hz, rfl⟩
    · rintro ⟨zs, h, rfl⟩
      cases h with
      | cons hu hw hz =>
        exact .cons ((rafsiListFor_iff ha).2 ⟨_, hu, hw, rfl⟩) ((ih hl _).2 ⟨_, hz, rfl⟩)

theorem represents_chosen {b : Build} {s : Settings} {N : Nat} : ∀ {vs : List Str} {i : Nat} {ll : List (List RafsiOpt)}
    {zs : List Slot}, rafsiListListFrom (program b) s N i vs = .ok ll → Represents b s N i vs zs →
    Chosen s N i vs (zs.map Slot.rafsi) (zs.map (opt s)) := by
  intro vs
  induction vs with
  | nil => intro i ll zs _ h; cases h; exact .nil
  | cons v vs ih =>
    intro i ll zs h hr
    unfold rafsiListListFrom at h
    obtain ⟨a, ha, h⟩ := bind_ok h
    obtain ⟨l, hl, h⟩ := bind_ok h
    cases hr with
    | cons hu hw hz =>
      obtain ⟨h1, h2⟩ := usable_form ha hu hw
      exact .cons h1 h2 (ih hl hz)

theorem rafsiListListFrom_not {b : Build} {s : Settings} {N : Nat} : ∀ {vs : List Str} {i : Nat},
    rafsiListListFrom (program b) s N i vs = .error .noLujvo → ∀ zs, ¬ Represents b s N i vs zs := by
  intro vs
  induction vs with
  | nil => intro i h; cases h
  | cons v vs ih =>
    intro i h zs hr
    unfold rafsiListListFrom at h
    cases hr with
    | cons hu hw hz =>
      rcases bind_fails h with h | ⟨a, -, h⟩
      · exact rafsiListFor_not h _ _ hu
      · rcases bind_fails h with h | ⟨l, -, h⟩
        · exact ih h _ hz
        · cases h

end Jvotci
