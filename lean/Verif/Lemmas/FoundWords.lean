import Verif.Lemmas.Found
import Verif.Lemmas.GluedBack
import Verif.SpecTanru

/-!
# Helper lemmas: the best lujvo of words is not a slinku'i
-/

namespace Jvotci

open Spec

theorem jvokaha_only_pieces {s : Settings} {v : Str} {ps : List Str} (hv : ∃ c, v.getLast? = some c ∧ Vowel c)
    (hk : jvokaha (program .linked) s.yHyphens s.consonants s.glides s.allowMz v = .ok ps) : ∃ ps, LujvoPieces s ps ∧ ps.flatten = v := by
  obtain ⟨c, hc, hcv⟩ := hv
  obtain ⟨c', l, m, hc', rfl, hj, hM, hA, hE, hF, hd⟩ := jvokaha_canon hk
  rw [hc] at hc'
  cases hc'
  rw [not_consonant_of_vowel ((isVowel_iff c).2 hcv)] at hM hA
  exact ⟨_, lujvoPieces_settings (s := kahaSettings s.yHyphens s.consonants s.glides s.allowMz) rfl rfl rfl (made_lujvoPieces hM hA hE hd), hj⟩

/-- A slinku'i has a consonant at the beginning and is a lujvo with "to" before it. -/
theorem slinkuhi_pieces {y : YHyphens} {mz : Bool} {w : Str} (hv : ∃ c, w.getLast? = some c ∧ Vowel c)
    (h0 : ∃ c, w.head? = some c ∧ (Vowel c ∨ Consonant c)) (h : (program .linked).slinkuhi y mz w = .ok true) :
    ConsonantInitial w ∧ ∃ qs, LujvoPieces { yHyphens := y, allowMz := mz } qs ∧ qs.flatten = s%"to" ++ w := by
  rw [slinkuhi_program] at h
  obtain ⟨c, hc, hcc⟩ := h0
  cases w with
  | nil => cases hc
  | cons c w =>
    cases hc
    unfold isSlinkuhi at h
    rw [show idx (c :: w) 0 = .ok c from rfl, ok_bind] at h
    by_cases hvc : isVowel c = true
    · rw [if_pos hvc] at h; cases h
    · rw [if_neg hvc] at h
      refine ⟨hcc.resolve_left fun h => hvc ((isVowel_iff c).2 h), ?_⟩
      cases hk : jvokaha (program .linked) y .cluster false mz (s%"to" ++ c :: w) with
      | ok ps =>
        refine jvokaha_only_pieces (s := { yHyphens := y, allowMz := mz }) ?_ hk
        obtain ⟨d, hd, hd2⟩ := hv
        exact ⟨d, by rw [List.getLast?_append, hd]; rfl, hd2⟩
      | error e =>
        rw [hk] at h
        cases e <;> cases h

/-- A y of the word is a hyphen, or the end of one. -/
theorem piece_at_y {mz : Bool} : ∀ {qs : List Str}, (∀ q ∈ qs, Rafsi mz q ∨ q ∈ [s%"r", s%"n", s%"y", s%"'y"]) → ∀ {A t : Str},
    qs.flatten = A ++ 'y' :: t → ∃ u h v, qs = u ++ h :: v ∧ ((h = s%"y" ∧ u.flatten = A) ∨ (h = s%"'y" ∧ u.flatten ++ s%"'" = A)) ∧ v.flatten = t
  | [], _, A, t, h => by simp at h
  | q :: qs, hq, A, t, h => by
    have ih : ∀ {A' : Str}, qs.flatten = A' ++ 'y' :: t → A = q ++ A' →
        ∃ u h v, q :: qs = u ++ h :: v ∧ ((h = s%"y" ∧ u.flatten = A) ∨ (h = s%"'y" ∧ u.flatten ++ s%"'" = A)) ∧ v.flatten = t := by
      intro A' h e
      obtain ⟨u, h', v, rfl, hc, hv⟩ := piece_at_y (fun p hp => hq p (List.mem_cons_of_mem _ hp)) h
      refine ⟨q :: u, h', v, rfl, ?_, hv⟩
      rcases hc with ⟨h1, h2⟩ | ⟨h1, h2⟩
      · exact .inl ⟨h1, by rw [e, ← h2]; rfl⟩
      · exact .inr ⟨h1, by rw [e, ← h2]; simp⟩
    rw [List.flatten_cons] at h
    rcases List.append_eq_append_iff.1 h with ⟨a', h1, h2⟩ | ⟨c', h1, h2⟩
    · exact ih h2 h1
    · cases c' with
      | nil => exact ih (A' := []) (by simpa using h2.symm) (by simpa using h1.symm)
      | cons d c' =>
        have hd : 'y' = d := by simpa using (List.cons.inj h2).1
        subst hd
        have e2 : t = c' ++ qs.flatten := by simpa using h2
        rcases hq q (by simp) with hr | hr
        · exact absurd (by rw [h1]; simp) (rafsi_noY hr)
        · simp at hr
          rcases hr with rfl | rfl | rfl | rfl
          · have hm : 'y' ∈ s%"r" := by rw [h1]; simp
            exact absurd hm (by decide)
          · have hm : 'y' ∈ s%"n" := by rw [h1]; simp
            exact absurd hm (by decide)
          · cases A with
            | nil =>
              simp at h1
              subst h1
              exact ⟨[], s%"y", qs, rfl, .inl ⟨rfl, rfl⟩, by rw [e2]; rfl⟩
            | cons a A => simp at h1
          · match A, h1 with
            | [], h1 => simp at h1
            | [a], h1 =>
              simp at h1
              obtain ⟨rfl, rfl⟩ := h1
              exact ⟨[], s%"'y", qs, rfl, .inr ⟨rfl, rfl⟩, by rw [e2]; rfl⟩
            | a :: b :: A, h1 => simp at h1

/-- The pieces of a lujvo that begins with "to" and a consonant have no 'y, and behind a y there are rafsi again. -/
theorem slinkuhi_y {s : Settings} {qs : List Str} {w A t : Str} (h : LujvoPieces s qs) (hc : ConsonantInitial w)
    (e : qs.flatten = s%"to" ++ w) (hw : w = A ++ 'y' :: t) :
    A.getLast? ≠ some '\'' ∧ ∃ v, Reading s.yHyphens s.allowMz v ∧ v.flatten = t := by
  have hR := h.reading
  have hno : s%"'y" ∉ qs := by
    intro hm
    obtain ⟨u, v, rfl⟩ := List.append_of_mem hm
    have hu : u ≠ [] := by
      rintro rfl
      obtain ⟨r, hr, hrr⟩ := hR.first
      cases hr
      exact rafsi_not_hyphen hrr (by decide)
    obtain ⟨u', p, rfl⟩ : ∃ a' z, u = a' ++ [z] := ⟨_, _, (List.dropLast_concat_getLast hu).symm⟩
    obtain ⟨q, v, rfl⟩ : ∃ q b, v = q :: b := by
      cases v with
      | nil =>
        obtain ⟨r, hr, hrr⟩ := hR.last
        simp at hr
        subst hr
        exact absurd (by decide) (rafsi_not_hyphen hrr)
      | cons q v => exact ⟨q, v, rfl⟩
    obtain ⟨-, rfl, ⟨x, a, b, ha, hb, hp⟩, -⟩ := h.apostropheY u' p q v (by simp)
    cases w with
    | nil => exact hc
    | cons d w =>
      have hd : Consonant d := hc
      rcases hp with rfl | rfl
      · simp at e
        exact vowel_not_consonant (e.2.2.1 ▸ hb) hd
      · simp at e
        rw [← e.2.2.1] at hd
        revert hd; decide
  obtain ⟨u, h', v, rfl, hcase, hv⟩ := piece_at_y (A := s%"to" ++ A) (t := t) (reading_pieces' hR) (by rw [e, hw]; simp)
  rcases hcase with ⟨rfl, hu⟩ | ⟨rfl, -⟩
  · have hune : u ≠ [] := by
      rintro rfl
      simp at hu
    obtain ⟨u', p, rfl⟩ : ∃ a' z, u = a' ++ [z] := ⟨_, _, (List.dropLast_concat_getLast hune).symm⟩
    obtain ⟨q, v', rfl⟩ : ∃ q b, v = q :: b := by
      cases v with
      | nil =>
        obtain ⟨r, hr, hrr⟩ := hR.last
        simp at hr
        subst hr
        exact absurd (by decide) (rafsi_not_hyphen hrr)
      | cons q v => exact ⟨q, v, rfl⟩
    have hyy : Hyphen s%"y" := by decide
    have hpr : Rafsi s.allowMz p := by
      have hlk := hR.links u' p s%"y" (q :: v') (by simp)
      cases hlk with
      | rafsi h => exact h
      | y h => exact h
      | rOrN _ h => exact h
      | afterY _ h => exact absurd hyy (rafsi_not_hyphen h)
      | afterR h => exact absurd hyy (rafsi_not_hyphen h)
      | afterN h => exact absurd hyy (rafsi_not_hyphen h)
    have hqr : Rafsi s.allowMz q := by
      have hlk := hR.links (u' ++ [p]) s%"y" q v' (by simp)
      generalize e2 : s%"y" = h0 at hlk
      cases hlk with
      | rafsi _ h => exact h
      | y h => subst e2; exact absurd hyy (rafsi_not_hyphen h)
      | apostropheY _ h => subst e2; exact absurd hyy (rafsi_not_hyphen h)
      | rOrN _ h => subst e2; exact absurd hyy (rafsi_not_hyphen h)
      | afterY _ h => exact h
      | afterR h => exact h
      | afterN h => exact h
    constructor
    · intro hA
      obtain ⟨c, hcl, hcv⟩ := rafsi_lastLetter hpr
      have e2 := congrArg List.getLast? hu
      rw [List.flatten_append, getLast?_append_ne _ (by simpa using rafsi_ne hpr), List.getLast?_append, hA] at e2
      simp [hcl] at e2
      subst e2
      revert hcv; decide
    · refine ⟨q :: v', ⟨⟨q, rfl, hqr⟩, ?_, ?_, ?_, ?_⟩, hv⟩
      · obtain ⟨r, hr, hrr⟩ := hR.last
        refine ⟨r, ?_, hrr⟩
        rw [List.getLast?_append, List.getLast?_cons_cons] at hr
        cases hg : (q :: v').getLast? with
        | none => simp at hg
        | some g => rw [hg] at hr; simpa using hr
      · intro x hx
        exact hR.diphthongs x (List.mem_append_right _ (List.mem_cons_of_mem _ hx))
      · intro a x z b e2
        exact hR.links (u' ++ [p] ++ s%"y" :: a) x z b (by rw [e2]; simp)
      · rintro a b c v'' - e2
        exact hno (by rw [e2]; simp)
  · exact absurd (by simp) hno

/-! ## The components -/

theorem spelled_letters {v : Str} (h : Spelled v) (hd : '-' ∉ v) : ∀ c ∈ v, Vowel c ∨ Consonant c ∨ c = '\'' := by
  obtain ⟨x, i, j, e, -, hl, -⟩ := h
  have hi : i = 0 := by
    cases i with
    | zero => rfl
    | succ i => exact absurd (by rw [e]; simp [List.replicate_succ]) hd
  have hj : j = 0 := by
    cases j with
    | zero => rfl
    | succ j => exact absurd (by rw [e]; simp [List.replicate_succ]) hd
  subst hi hj
  simp at e
  rw [e]
  exact hl

theorem last_dash (a : Str) (j : Nat) : (a ++ List.replicate (j + 1) '-').getLast? = some '-' := by
  rw [List.replicate_succ', ← List.append_assoc, List.getLast?_concat]

/-- No zi'evla ends in a consonant, a vowel and a. -/
theorem sounds_cva {mz : Bool} {u : Str} {c v : Char} (hc : Consonant c) (hv : Vowel v) (h : Sounds mz (u ++ [c, v] ++ s%"a")) : False := by
  obtain ⟨syls, e, hr, hg⟩ := h.vowels (u ++ [c]) [v, 'a'] [] ⟨by simp, by simp, by simp [hv]; decide,
    by simp; exact fun h => vowel_not_consonant h hc, by simp⟩
  cases hr with
  | @one x h =>
    simp at e
    subst e
    rcases h with h | h
    · simp [Nucleus] at h
    · exact hg (by simp) _ rfl h
  | @more l x h1 h2 =>
    have h3 : 0 < l.flatten.length := by
      cases h1 with
      | one h =>
        rcases h with h | ⟨g, n, -, -, rfl⟩
        · simp [Nucleus] at h
          rcases h with h | h | h | h | h | h | h | h | h <;> simp [h]
        · simp
      | more _ h => obtain ⟨g, n, -, -, rfl⟩ := h; simp; omega
    obtain ⟨g, n, -, hn, rfl⟩ := h2
    have h4 : 0 < n.length := by
      simp [Nucleus] at hn; rcases hn with h | h | h | h | h | h | h | h | h <;> simp [h]
    have := congrArg List.length e
    simp at this h3
    omega

/-- No CLL rafsi with a behind it is a zi'evla. -/
theorem rafsi_a {s : Settings} {x : Str} {ps : List Str} (h : Rafsi s.allowMz x) :
    analyseBrivla .linked s (x ++ s%"a") ≠ .ok (.zihevla, ps) := by
  intro hw
  have hl := rafsi_length h
  have hra : reading (x ++ s%"a") = x ++ s%"a" := reading_letters (by
      intro c hc
      rcases List.mem_append.1 hc with hc | hc
      · exact rafsi_letters h c hc
      · simp at hc; subst hc; exact .inl (by decide))
  have hb : 10 < 10 ^ 94 := by decide
  obtain ⟨-, hf, hg, -⟩ := (C45_zihevla (by simp; omega)).1 hw
  rw [hra] at hf hg
  obtain ⟨p, r, e, hp, hr⟩ := form_pair hf
  have hvc : ∀ c, Vowel c → ¬ Consonant c := fun _ => vowel_not_consonant
  have ha : ¬ Consonant 'a' := by decide
  have hap : ¬ Consonant '\'' := by decide
  cases h with
  | cvv _ h1 h2 => simp only [List.cons_append, List.nil_append, adjacent_cons, adjacent_single] at e; grind
  | cvhv _ h1 h2 => simp only [List.cons_append, List.nil_append, adjacent_cons, adjacent_single] at e; grind
  | cvc _ h1 h2 => simp only [List.cons_append, List.nil_append, adjacent_cons, adjacent_single] at e; grind
  | @ccv a b c h1 h2 => exact sounds_cva (u := [a]) ((isConsonant_iff _).1 (initial_cons h1).2) h2 hf.sounds
  | cvcc h1 h2 h3 => exact hg (.cvccv h1 h2 h3 (by decide))
  | ccvc h1 h2 h3 => exact hg (.ccvcv h1 h2 h3 (by decide))
  | gismu h =>
    cases h with
    | @cvccv a b c d v h1 h2 h3 h4 => exact sounds_cva (u := [a, b, c]) h3.2.1 h4 hf.sounds
    | @ccvcv a b c d v h1 h2 h3 h4 => exact sounds_cva (u := [a, b, c]) h3 h4 hf.sounds

/-- A component that is a word, or a rafsi, is represented by a rafsi or by itself, a zi'evla. -/
theorem component_unit {s : Settings} {v x : Str} {k : Kind} (hu : Usable .linked s v x k) (hm : '-' ∉ v → NoMzWord s v) (hv : Spelled v)
    (hlen : v.length < 10 ^ 90) (hc : WordOrRafsi s.allowMz v) :
    (Rafsi s.allowMz x ∧ k = kindOf x) ∨ (ZWhole s x ∧ k = .long ∧ x = v) := by
  have hgc : ∀ {x : Str} {c : Char}, Gismu s.allowMz (x ++ [c]) → Rafsi s.allowMz x ∧ .short = kindOf x := by
    intro x c h
    obtain ⟨h1, h2, h3, -⟩ := gismu_cut h
    exact ⟨h1, h3.symm⟩
  have hno : ∀ {y : Str} {mz : Bool}, Rafsi mz y → '-' ∉ y := fun h => letters_no_dash (rafsi_letters h)
  have hbig : (10 : Nat) ^ 90 < 10 ^ 94 := by decide
  have hdash : v.getLast? = some '-' → ∃ y, Rafsi s.allowMz y ∧ stripBoth (· == '-') v = y := by
    intro hl
    rcases hc with h | ⟨y, i, j, e, hr⟩
    · exact absurd (List.mem_of_getLast? hl) h
    · exact ⟨y, hr, by rw [e]; exact strip_dashes (hno hr) _ _⟩
  have hd : ∀ {x : Str}, Dashed v x → Rafsi s.allowMz x := by
    rintro x ⟨h1, i, j, e⟩
    obtain ⟨y, hy, e2⟩ := hdash (by rw [e]; exact last_dash _ _)
    rw [e, strip_dashes h1] at e2
    exact e2 ▸ hy
  have hlet : v.getLast? ≠ some '-' → ∀ c ∈ v, Vowel c ∨ Consonant c ∨ c = '\'' := by
    intro h
    refine spelled_letters hv ?_
    rcases hc with hc | ⟨y, i, j, e, -⟩
    · exact hc
    · exfalso
      refine h ?_
      rw [e]
      exact last_dash _ _
  cases hu with
  | listed _ h1 h2 h3 =>
    have hr : Rafsi s.allowMz x := rafsi_mono (isValidRafsi_iff.1 (table_shapes _ h1 _ h2).2)
    exact .inl ⟨hr, (kindOf_iff hr).1 h3⟩
  | @stem _ c h1 hw e =>
    obtain ⟨ps, hw⟩ := hw
    obtain ⟨-, hg, -⟩ := C03_gismu_iff.1 hw
    rw [reading_letters (hlet h1)] at hg
    subst e
    exact .inl (hgc hg)
  | word h1 hw =>
    rcases hw with ⟨ps, hw⟩ | ⟨ps, hw⟩
    · obtain ⟨-, hg, -⟩ := C03_gismu_iff.1 hw
      rw [reading_letters (hlet h1)] at hg
      exact .inl ⟨.gismu hg, (gismu_long hg (.gismu hg)).symm⟩
    · have hm := hm (letters_no_dash (hlet h1))
      exact .inr ⟨zwhole_of (noMzWord_zihevla hm (reading_letters (hlet h1)) (by omega) hw) (fun d hd => readChar_letter (hlet h1 d hd)) (by omega) hw, rfl, rfl⟩
  | rafsi _ hr hk => exact .inl ⟨hr, (kindOf_iff hr).1 hk⟩
  | zihevla h1 h0 _ => exact absurd (hd h1) (shape_rafsi h0)
  | experimental h1 h0 _ _ _ => exact absurd (hd h1) (shape_rafsi h0)
  | @cut _ j e h2 hw hj =>
    obtain ⟨y, hy, e2⟩ := hdash (by rw [e]; exact last_dash _ _)
    have e3 := strip_dashes h2 0 (j + 1)
    simp at e3
    rw [e, e3] at e2
    subst e2
    have hr := fun d hd => (rafsi_letters hy d hd : Vowel d ∨ Consonant d ∨ d = '\'')
    have hra : reading (x ++ s%"a") = x ++ s%"a" := reading_letters (by
      intro c hc
      rcases List.mem_append.1 hc with hc | hc
      · exact hr c hc
      · simp at hc; subst hc; exact .inl (by decide))
    rcases hw with ⟨ps, hw⟩ | ⟨ps, hw⟩
    · obtain ⟨-, hg, -⟩ := C03_gismu_iff.1 hw
      rw [hra] at hg
      exact .inl (hgc hg)
    · exact absurd hw (rafsi_a (s := { yHyphens := s.yHyphens, expRafsi := s.expRafsi, allowMz := s.allowMz }) hy)

theorem wordOf_around (u : List Slot) (z : Slot) (t : List Slot) (h : Str) (ht : t ≠ []) :
    ∃ A B, wordOf (u ++ z :: t) h = A ++ z.text ++ B := by
  cases u with
  | nil => exact ⟨[], h ++ (t.map Slot.text).flatten, by simp [wordOf]⟩
  | cons y u => exact ⟨y.text ++ h ++ (u.map Slot.text).flatten, (t.map Slot.text).flatten, by simp [wordOf]⟩

/-- The best lujvo of words and rafsi is not a slinku'i. -/
theorem words_not_slinkuhi {s : Settings} {vs : List Str} {zs : List Slot} {hy : Str}
    (hs : ∀ v ∈ vs, Spelled v ∧ v.length < 10 ^ 90 ∧ WordOrRafsi s.allowMz v) (hm : ∀ v ∈ vs, '-' ∉ v → NoMzWord s v)
    (hrep : Represents .linked s vs.length 0 vs zs) (hL : Legal s false zs hy)
    (hmin : ∀ w sc, LujvoOf .linked s false vs w sc → cost zs hy ≤ sc) :
    (program .linked).slinkuhi s.yHyphens s.allowMz (wordOf zs hy) ≠ .ok true := by
  intro hsl
  have hunit : ∀ z ∈ zs, (Rafsi s.allowMz z.rafsi ∧ z.kind = kindOf z.rafsi) ∨ (ZWhole s z.rafsi ∧ z.kind = .long) := by
    intro z hz
    obtain ⟨v, hv, hu⟩ := represents_mem hrep z hz
    obtain ⟨h1, h2, h3⟩ := hs v hv
    exact (component_unit hu (hm v hv) h1 h2 h3).imp id fun h => ⟨h.1, h.2.1⟩
  have hput : ∀ {u : List Slot} {z : Slot} {t : List Slot}, zs = u ++ z :: t → z.Written (u.length == 0) (t.length == 0) := by
    intro u z t e
    rw [e] at hrep
    obtain ⟨v, -, -, hw, hlen, -⟩ := represents_put hrep
    have : (0 + u.length + 1 == vs.length) = (t.length == 0) := by
      rw [Bool.eq_iff_iff, beq_iff_eq, beq_iff_eq]
      omega
    rw [this, Nat.zero_add] at hw
    exact hw
  have hvow : ∃ c, (wordOf zs hy).getLast? = some c ∧ Vowel c := by
    obtain ⟨c, hc, hv⟩ := hL.ends
    exact ⟨c, hc, by simpa using hv⟩
  have hhead : ∃ c, (wordOf zs hy).head? = some c ∧ (Vowel c ∨ Consonant c) := by
    obtain ⟨y, z, rest, rfl, -⟩ := hL.first
    obtain ⟨h, ht, -⟩ := hput (u := []) (z := y) (t := z :: rest) rfl
    have hf : ∃ c t, y.rafsi = c :: t ∧ (Vowel c ∨ Consonant c) := by
      rcases hunit y (by simp) with ⟨hr, -⟩ | ⟨hz, -⟩
      · obtain ⟨c, t, e, hc⟩ := rafsi_first hr
        exact ⟨c, t, e, .inr ((isConsonant_iff c).1 hc)⟩
      · cases e : y.rafsi with
        | nil => have := form_long hz.form; rw [e] at this; simp at this
        | cons c t => exact ⟨c, t, rfl, sounds_firstLetter (e ▸ hz.form.sounds)⟩
    obtain ⟨c, t, e, hc⟩ := hf
    refine ⟨c, ?_, hc⟩
    simp [wordOf, ht, leading, e]
  obtain ⟨hci, qs, hq, e⟩ := slinkuhi_pieces hvow hhead hsl
  have hno : ∀ A B, wordOf zs hy ≠ A ++ s%"'y" ++ B := by
    intro A B e2
    exact (slinkuhi_y hq hci e (A := A ++ s%"'") (t := B) (by rw [e2]; simp)).1 (by simp)
  have hshort : ∀ z ∈ zs.dropLast, z.kind ≠ .long := by
    intro z hz hk
    obtain ⟨u, t, ez, hne⟩ : ∃ u t, zs = u ++ z :: t ∧ t ≠ [] := by
      obtain ⟨u, t, e⟩ := List.append_of_mem hz
      have hz' : zs ≠ [] := by rintro rfl; simp at hz
      refine ⟨u, t ++ [zs.getLast hz'], ?_, by simp⟩
      have := List.dropLast_concat_getLast hz'
      rw [e] at this
      simpa using this.symm
    obtain ⟨h, ht, htr⟩ := hput ez
    have hl0 : (t.length == 0) = false := by cases t with
      | nil => exact absurd rfl hne
      | cons => simp
    rw [hk, hl0] at htr
    have hh : h = s%"'y" := by
      rcases htr with ⟨h, -⟩ | ⟨-, h⟩
      · exact h
      · cases h
    obtain ⟨A, B, eAB⟩ := wordOf_around u z t hy hne
    rw [← ez] at eAB
    exact hno (A ++ (leading (u.length == 0) z.rafsi ++ z.rafsi)) B (by rw [eAB, ht, hh]; simp)
  obtain ⟨y0, z1, rest0, ezs, hfirst⟩ := hL.first
  obtain ⟨u, y, z, ezs'⟩ : ∃ u y z, zs = u ++ [y, z] := by
    have hne : zs ≠ [] := by rw [ezs]; simp
    have hne' : zs.dropLast ≠ [] := by rw [ezs]; simp
    refine ⟨zs.dropLast.dropLast, zs.dropLast.getLast hne', zs.getLast hne, ?_⟩
    have h1 := List.dropLast_concat_getLast hne
    have h2 := List.dropLast_concat_getLast hne'
    calc zs = zs.dropLast ++ [zs.getLast hne] := h1.symm
      _ = (zs.dropLast.dropLast ++ [zs.dropLast.getLast hne']) ++ [zs.getLast hne] := by rw [h2]
      _ = _ := by simp
  have hdl : zs.dropLast = u ++ [y] := by
    rw [ezs']
    rw [show u ++ [y, z] = (u ++ [y]) ++ [z] by simp, List.dropLast_concat]
  have hr0 : ∀ p ∈ u ++ [y], Rafsi s.allowMz p.rafsi ∧ p.kind = kindOf p.rafsi := by
    intro p hp
    rw [← hdl] at hp
    rcases hunit p (List.dropLast_subset zs hp) with h | ⟨-, h⟩
    · exact h
    · exact absurd h (hshort p hp)
  rcases hunit z (by rw [ezs']; simp) with ⟨hz, -⟩ | ⟨hz, hzk⟩
  · -- all are rafsi
    have hr : ∀ p ∈ zs, Rafsi s.allowMz p.rafsi := by
      intro p hp
      rw [ezs', show u ++ [y, z] = (u ++ [y]) ++ [z] by simp] at hp
      rcases List.mem_append.1 hp with hp | hp
      · exact (hr0 p hp).1
      · simp at hp; subst hp; exact hz
    obtain ⟨l, hM, el⟩ := best_made hrep hL hmin hr (by
      intro p hp
      rw [← (hr0 p (hdl ▸ hp)).2]
      exact hshort p hp)
    rw [el] at hsl hvow
    rw [canon_not_slinkuhi hM hvow] at hsl
    cases hsl
  · -- the last is a zi'evla
    obtain ⟨hyr, hyk⟩ := hr0 y (by simp)
    obtain ⟨h, ht, htr⟩ := hput (u := u) (z := y) (t := [z]) ezs'
    obtain ⟨h', ht', htr'⟩ := hput (u := u ++ [y]) (z := z) (t := []) (by rw [ezs']; simp)
    have hh' : h' = [] := by
      rw [hzk] at htr'
      rcases htr' with ⟨-, h⟩ | ⟨h, -⟩
      · cases h
      · exact h
    rw [hh', List.append_nil] at ht'
    rw [leading_rafsi hyr, List.nil_append] at ht
    have hj := (hL.joints y z ⟨u, [], ezs'⟩).hyphen (.inr (zwhole_shape hz))
    obtain ⟨c, hcl, hcv⟩ := rafsi_lastLetter hyr
    have hkey : ∃ A, wordOf zs hy = A ++ 'y' :: z.text := by
      have hlast : y.text.getLast? = if h = [] then some c else h.getLast? := by
        rw [ht]
        split
        · rename_i e0; rw [e0, List.append_nil, hcl]
        · rename_i e0; rw [getLast?_append_ne _ e0]
      have hcy : c ≠ 'y' ∧ c ≠ '\'' := by
        constructor <;> rintro rfl <;> revert hcv <;> decide
      rcases hj with hj | hj
      · obtain ⟨X, eX⟩ := List.getLast?_eq_some_iff.1 hj
        cases u with
        | cons a u =>
          refine ⟨a.text ++ hy ++ (u.map Slot.text).flatten ++ X, ?_⟩
          rw [ezs']
          simp [wordOf, eX]
        | nil =>
          have e2 : [y, z] = y0 :: z1 :: rest0 := ezs'.symm.trans ezs
          obtain ⟨rfl, rfl, rfl⟩ : y = y0 ∧ z = z1 ∧ [] = rest0 := by simpa using e2
          have hhy : hy = [] := by
            rcases hfirst with ⟨h0, -⟩ | ⟨-, -, h0⟩
            · rw [hj] at h0; cases h0
            · rw [h0, if_neg]
              rintro ⟨hp, -⟩
              have hkv : kindOf y.rafsi = .vv := by
                rw [kind_vv]
                simpa [pattern_cvv, pattern_cvhv] using hp
              rw [hyk, hkv] at htr
              have htr : Trailing true false y.rafsi .vv h := htr
              simp [Trailing] at htr
              rw [hlast] at hj
              rcases htr with rfl | rfl
              · exact hcy.1 (Option.some.inj hj)
              · simp at hj
          refine ⟨X, ?_⟩
          rw [ezs', hhy]
          simp [wordOf, eX]
      · have hfv : u = [] := by
          cases u with
          | nil => rfl
          | cons a u =>
            exfalso
            have htr : Trailing false false y.rafsi y.kind h := htr
            rw [hlast] at hj
            rcases trailing_mid htr (by rw [hyk]; exact rafsi_kind hyr) with ⟨rfl, -⟩ | ⟨-, rfl⟩ | ⟨-, rfl⟩
            · exact hcy.2 (Option.some.inj hj)
            · simp at hj
            · simp at hj
        subst hfv
        have e2 : [y, z] = y0 :: z1 :: rest0 := ezs'.symm.trans ezs
        obtain ⟨rfl, rfl, rfl⟩ : y = y0 ∧ z = z1 ∧ [] = rest0 := by simpa using e2
        rcases hfirst with ⟨-, h, -⟩ | ⟨h, -⟩
        · refine ⟨y.text, ?_⟩
          rw [ezs', h]
          simp [wordOf]
        · exact absurd hj h
    obtain ⟨A, eA⟩ := hkey
    obtain ⟨-, v, hv, ev⟩ := slinkuhi_y hq hci e eA
    rw [ht'] at ev
    have hh := reading_head hv
    rw [ev] at hh
    unfold leading at ev hh
    split at ev
    · rename_i hc
      rw [if_pos hc] at hh
      have : Consonant '\'' := hh
      exact absurd this (by decide)
    · exact hz.unreadable v hv (by simpa using ev)

/-- The search finds the lujvo of words and rafsi. -/
theorem words_found {s : Settings} {g : Bool} {vs : List Str} {w : Str} {sc : Int}
    (hs : ∀ v ∈ vs, Spelled v ∧ v.length < 10 ^ 90 ∧ WordOrRafsi s.allowMz v) (hm : ∀ v ∈ vs, '-' ∉ v → NoMzWord s v)
    (hl : LujvoOf .linked s g vs w sc) (hlt : sc < 10 ^ 100) : ∃ r, getLujvoFromList (program .linked) s g vs = .ok r := by
  rcases search_found (fun v hv => (hs v hv).1) hl hlt with h | ⟨rfl, -, w', sc', ⟨zs, hy, hrep, hL, rfl, rfl⟩, hmin, hsl⟩ |
      ⟨-, -, v, hv, x, j, e, -, hlet, h6, -⟩
  · exact h
  · exact absurd hsl (words_not_slinkuhi hs hm hrep hL hmin)
  · exfalso
    rcases (hs v hv).2.2 with h | ⟨y, i, j', e', hr⟩
    · exact h (by rw [e]; simp [List.replicate_succ])
    · have h1 := strip_dashes (letters_no_dash hlet) 0 (j + 1)
      have h2 := strip_dashes (letters_no_dash (rafsi_letters hr)) i (j' + 1)
      rw [← e'] at h2
      simp only [List.replicate_zero, List.nil_append] at h1
      rw [← e, h2] at h1
      have := rafsi_length hr
      rw [h1] at this
      omega

/-! ## Every tanru of gismu and zi'evla has a lujvo -/

theorem shape_pattern {x : Str} (h : shapeScore x = 0) : pattern x ∉ [s%"CVC", s%"CVV", s%"CV'V", s%"CCV"] := by
  intro hp
  simp only [List.mem_cons, List.not_mem_nil, or_false] at hp
  unfold shapeScore at h
  rcases hp with hp | hp | hp | hp <;> rw [hp] at h <;> revert h <;> decide

/-- Slots for gismu and zi'evla: a gismu without its last vowel and with y, a zi'evla with 'y, the last word whole or,
if a cmevla is wanted, without its last vowel. -/
theorem word_slots {s : Settings} {g : Bool} {n : Nat} : ∀ {vs : List Str} {i : Nat}, i + vs.length = n → vs ≠ [] →
    (∀ v ∈ vs, Gismu s.allowMz v ∨ (WordType .linked s v .zihevla ∧ ZWhole s v)) → (g = true → ∃ v, vs.getLast? = some v ∧ Gismu s.allowMz v) →
    ∃ zs, Represents .linked s n i vs zs ∧ zs.length = vs.length ∧
      (∀ z ∈ zs, pattern z.rafsi ∉ [s%"CVC", s%"CVV", s%"CV'V", s%"CCV"] ∧ z.count s = 2) ∧
      (zs.map Slot.text).flatten.length ≤ 4 * vs.flatten.length ∧ (∀ z ∈ zs.dropLast, z.text.getLast? = some 'y') ∧
      ∃ z l, zs.getLast? = some z ∧ z.text.getLast? = some l ∧ if g then Consonant l else Vowel l
  | [], _, _, h, _, _ => absurd rfl h
  | v :: vs, i, hn, _, hg, hend => by
    -- the slot for a word that is not the last
    have hmid : vs ≠ [] → ∃ z : Slot, Usable .linked s v z.rafsi z.kind ∧ z.Written (i == 0) false ∧
        pattern z.rafsi ∉ [s%"CVC", s%"CVV", s%"CV'V", s%"CCV"] ∧ z.count s = 2 ∧ z.text.length ≤ 4 * v.length ∧ z.text.getLast? = some 'y' := by
      intro _
      rcases hg v (by simp) with hv | ⟨hw, hz⟩
      · obtain ⟨zs, h1, h2, h3, h4, -⟩ := gismu_slots (b := .linked) (s := s) (g := false) (n := i + 2) (vs := [v, v]) (i := i) rfl (by simp)
          (by intro x hx; simp at hx; rw [hx]; exact hv)
        match zs, h1, h2 with
        | [z, z'], .cons hu hw _, _ =>
          have hf : (i + 1 == i + 2) = false := by simp
          rw [hf] at hw
          refine ⟨z, hu, hw, (h3 z (by simp)).1, (h3 z (by simp)).2.1, ?_, h4 z (by simp)⟩
          have := (h3 z (by simp)).2.2
          have : v.length = 5 := by cases hv <;> rfl
          omega
      · refine ⟨⟨v, .long, leading (i == 0) v ++ v ++ s%"'y"⟩, .word ?_ (.inr hw), ⟨_, rfl, .inl ⟨rfl, rfl⟩⟩, shape_pattern (zwhole_shape hz), rfl, ?_, ?_⟩
        · obtain ⟨c, hc, hv⟩ := hz.form.vowel
          rw [hc]; rintro ⟨⟩; revert hv; decide
        · have h4 := form_long hz.form
          have : (leading (i == 0) v).length ≤ 1 := by unfold leading; split <;> simp
          simp
          omega
        · simp [List.getLast?_append]
    cases vs with
    | cons v' vs =>
      obtain ⟨z, hu, hw, hp, hc, hl, hy⟩ := hmid (by simp)
      obtain ⟨zs, h1, h2, h3, h4, h5, z', l, h6, h7⟩ := word_slots (s := s) (g := g) (n := n) (vs := v' :: vs) (i := i + 1)
        (by simp at hn ⊢; omega) (by simp) (fun v hv => hg v (List.mem_cons_of_mem _ hv)) (by simpa using hend)
      have hne : zs ≠ [] := by rintro rfl; simp at h2
      have hlast : (i + 1 == n) = false := by simp at hn ⊢; omega
      refine ⟨z :: zs, .cons hu (by rw [hlast]; exact hw) h1, by simp [h2], ?_, ?_, ?_, z', l, ?_, h7⟩
      · intro x hx
        rcases List.mem_cons.1 hx with rfl | hx
        · exact ⟨hp, hc⟩
        · exact h3 x hx
      · rw [List.map_cons, List.flatten_cons, List.length_append, List.flatten_cons, List.length_append]
        omega
      · intro x hx
        rw [List.dropLast_cons_of_ne_nil hne] at hx
        rcases List.mem_cons.1 hx with rfl | hx
        · exact hy
        · exact h5 x hx
      · rw [List.getLast?_cons, h6]; rfl
    | nil =>
      have hn' : i + 1 = n := by simpa using hn
      have hlast : (i + 1 == n) = true := by simpa using hn'
      rcases hg v (by simp) with hv | ⟨hw, hz⟩
      · obtain ⟨zs, h1, h2, h3, h4, z, l, h5, h6⟩ := gismu_slots (b := .linked) (s := s) (g := g) (n := n) (vs := [v]) (i := i) hn (by simp)
          (by intro x hx; simp at hx; rw [hx]; exact hv)
        refine ⟨zs, h1, h2, fun z hz => ⟨(h3 z hz).1, (h3 z hz).2.1⟩, ?_, h4, z, l, h5, h6⟩
        have h7 := texts_length fun z hz => (h3 z hz).2.2
        have : v.length = 5 := by cases hv <;> rfl
        rw [h2] at h7
        simp only [List.flatten_cons, List.flatten_nil, List.append_nil, List.length_cons, List.length_nil] at h7 ⊢
        omega
      · cases g with
        | true =>
          exfalso
          obtain ⟨v', e, hv⟩ := hend rfl
          cases e
          exact unreadable_gismu hz.unreadable hv
        | false =>
          obtain ⟨c, hc, hv⟩ := hz.form.vowel
          refine ⟨[⟨v, .long, leading (i == 0) v ++ v⟩], .cons (.word ?_ (.inr hw)) ⟨[], by simp, .inr ⟨rfl, hlast⟩⟩ .nil, rfl, ?_, ?_, by simp, _, c, rfl, ?_, by simpa using hv⟩
          · rw [hc]; rintro ⟨⟩; revert hv; decide
          · intro z hz'
            simp at hz'
            subst hz'
            exact ⟨shape_pattern (zwhole_shape hz), rfl⟩
          · have h4 := form_long hz.form
            have : (leading (i == 0) v).length ≤ 1 := by unfold leading; split <;> simp
            simp
            omega
          · simp [List.getLast?_append, hc]

theorem word_lujvo {s : Settings} {g : Bool} {vs : List Str} (h2 : 2 ≤ vs.length)
    (hg : ∀ v ∈ vs, Gismu s.allowMz v ∨ (WordType .linked s v .zihevla ∧ ZWhole s v)) (hend : g = true → ∃ v, vs.getLast? = some v ∧ Gismu s.allowMz v) :
    ∃ w sc, LujvoOf .linked s g vs w sc ∧ w.length ≤ 4 * vs.flatten.length := by
  obtain ⟨zs, hrep, hlen, hall, htot, hy, z, l, hz, hl, hv⟩ := word_slots (s := s) (g := g) (n := vs.length) (vs := vs) (i := 0) (by simp)
    (by rintro rfl; simp at h2) hg hend
  rw [← hlen] at h2
  match zs, h2 with
  | y :: z' :: rest, _ =>
    refine ⟨_, _, ⟨y :: z' :: rest, [], hrep, legal_y ⟨_, _, _, rfl, (hall y (by simp)).1⟩ hy ?_ ⟨l, ?_, hv⟩, rfl, rfl⟩, ?_⟩
    · simp [(hall y (by simp)).2]
    · rw [wordOf_flatten]
      obtain ⟨u, e⟩ := List.getLast?_eq_some_iff.1 hz
      rw [e, List.map_append, List.flatten_append, List.getLast?_append]
      simp [hl]
    · rw [wordOf_flatten]
      exact htot

end Jvotci
