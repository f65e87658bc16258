import Verif.Lemmas.AgainTos

/-!
# Helper lemmas: slots for the parts of a word, without the r and n between rafsi
-/

namespace Jvotci

open Spec

/-- The number of r and n hyphens. -/
def glueCount (ps : List Str) : Nat := ps.countP (fun x => x = s%"r" ∨ x = s%"n")

theorem glue_append (u v : List Str) : glueCount (u ++ v) = glueCount u + glueCount v := List.countP_append

theorem glue_zero {ps : List Str} (h : ∀ x ∈ ps, x ≠ s%"r" ∧ x ≠ s%"n") : glueCount ps = 0 := by
  unfold glueCount
  rw [List.countP_eq_zero]
  intro x hx
  have := h x hx
  simp [this]

/-- `a` is `b` without `d` of its consonants, none of them the first or last letter. -/
structure Thin (d : Nat) (a b : Str) : Prop where
  sub : a.Sublist b
  len : b.length = a.length + d
  y : a.count 'y' = b.count 'y'
  vowels : vowelCount a = vowelCount b
  head : a.head? = b.head?
  last : a.getLast? = b.getLast?

theorem thin_refl (a : Str) : Thin 0 a a := ⟨List.Sublist.refl _, rfl, rfl, rfl, rfl, rfl⟩

theorem Thin.append {d d' : Nat} {a b a' b' : Str} (h : Thin d a b) (h' : Thin d' a' b') : Thin (d + d') (a ++ a') (b ++ b') := by
  refine ⟨h.sub.append h'.sub, ?_, ?_, ?_, ?_, ?_⟩
  · have := h.len; have := h'.len; simp only [List.length_append]; omega
  · rw [List.count_append, List.count_append, h.y, h'.y]
  · have h1 := h.vowels
    have h2 := h'.vowels
    unfold vowelCount at *
    rw [List.filter_append, List.filter_append, List.length_append, List.length_append, h1, h2]
  · rw [List.head?_append, List.head?_append, h.head, h'.head]
  · rw [List.getLast?_append, List.getLast?_append, h.last, h'.last]

theorem Thin.eq {a b : Str} (h : Thin 0 a b) : a = b := h.sub.eq_of_length (by have := h.len; omega)

theorem glue_hyphen {x : Str} (h : x ∈ [s%"r", s%"n"]) : Hyphen x := by
  simp only [List.mem_cons, List.not_mem_nil, or_false] at h
  rcases h with rfl | rfl <;> decide

theorem filter_rafsi {mz : Bool} {x : Str} {xs : List Str} (h : Rafsi mz x) :
    (x :: xs).filter (fun x => ¬ Hyphen x) = x :: xs.filter (fun x => ¬ Hyphen x) :=
  List.filter_cons_of_pos (by simpa using rafsi_not_hyphen h)

theorem filter_glue {x : Str} {xs : List Str} (h : x ∈ [s%"r", s%"n"]) :
    (x :: xs).filter (fun x => ¬ Hyphen x) = xs.filter (fun x => ¬ Hyphen x) :=
  List.filter_cons_of_neg (by simpa using glue_hyphen h)

theorem thin_core {mz : Bool} {xs : List Str} (h : ∀ x ∈ xs, Rafsi mz x ∨ x ∈ [s%"r", s%"n"]) :
    (xs.filter (fun x => ¬ Hyphen x)).flatten.Sublist xs.flatten ∧
    xs.flatten.length = (xs.filter (fun x => ¬ Hyphen x)).flatten.length + glueCount xs ∧
    (xs.filter (fun x => ¬ Hyphen x)).flatten.count 'y' = xs.flatten.count 'y' ∧
    vowelCount (xs.filter (fun x => ¬ Hyphen x)).flatten = vowelCount xs.flatten := by
  induction xs with
  | nil => exact ⟨List.Sublist.refl _, rfl, rfl, rfl⟩
  | cons x xs ih =>
    obtain ⟨h1, h2, h3, h4⟩ := ih fun y hy => h y (List.mem_cons_of_mem _ hy)
    rcases h x (by simp) with hr | hr
    · have hg : glueCount (x :: xs) = glueCount xs := by
        have : ¬ (x = s%"r" ∨ x = s%"n") := by
          rintro (e | e) <;> subst e <;> have := rafsi_length hr <;> simp at this
        unfold glueCount
        rw [List.countP_cons_of_neg (by simpa using this)]
      rw [filter_rafsi hr, hg]
      simp only [List.flatten_cons]
      refine ⟨(List.Sublist.refl x).append h1, by simp only [List.length_append]; omega, by rw [List.count_append, List.count_append, h3], ?_⟩
      unfold vowelCount at h4 ⊢
      rw [List.filter_append, List.filter_append, List.length_append, List.length_append, h4]
    · rw [filter_glue hr]
      simp only [List.flatten_cons]
      have hg : glueCount (x :: xs) = glueCount xs + 1 := by
        unfold glueCount
        rw [List.countP_cons_of_pos (by simpa using hr)]
      have hx : x.length = 1 ∧ x.count 'y' = 0 ∧ vowelCount x = 0 := by
        simp only [List.mem_cons, List.not_mem_nil, or_false] at hr
        rcases hr with rfl | rfl <;> decide
      rw [hg]
      refine ⟨List.Sublist.trans h1 (List.sublist_append_right x _), by simp only [List.length_append]; omega, by rw [List.count_append, hx.2.1, h3]; omega, ?_⟩
      have := hx.2.2
      unfold vowelCount at h4 this ⊢
      rw [List.filter_append, List.length_append, h4, this]
      omega

theorem thin_pieces {mz : Bool} {xs : List Str} (h : ∀ x ∈ xs, Rafsi mz x ∨ x ∈ [s%"r", s%"n"]) (hf : ∃ p, xs.head? = some p ∧ Rafsi mz p)
    (hl : ∃ p, xs.getLast? = some p ∧ Rafsi mz p) : Thin (glueCount xs) (xs.filter (fun x => ¬ Hyphen x)).flatten xs.flatten := by
  obtain ⟨h1, h2, h3, h4⟩ := thin_core h
  refine ⟨h1, h2, h3, h4, ?_, ?_⟩
  · obtain ⟨p, hp, hr⟩ := hf
    cases xs with
    | nil => cases hp
    | cons x xs =>
      cases hp
      rw [filter_rafsi hr]
      obtain ⟨a, t, rfl, -⟩ := rafsi_first hr
      rfl
  · obtain ⟨p, hp, hr⟩ := hl
    obtain ⟨u, rfl⟩ := List.getLast?_eq_some_iff.1 hp
    obtain ⟨c, hc, -⟩ := rafsi_lastLetter hr
    rw [List.filter_append, filter_rafsi hr]
    simp [List.getLast?_append, hc]

/-- Slots that stand side by side without hyphens. -/
def BareSlots (mz : Bool) (zs : List Slot) : Prop :=
  (∀ z ∈ zs, Rafsi mz z.rafsi ∧ z.kind = kindOf z.rafsi) ∧ ∀ u z t, zs = u ++ z :: t → t ≠ [] → z.text = z.rafsi

theorem vowel_joint (mz : Bool) {x : Str} (h : VowelRafsi x) (q : Str) :
    (∀ c d, x.getLast? = some c → q.head? = some d → Consonant c → PermissiblePair mz c d) ∧
    (∀ c d e t, x.getLast? = some c → q = d :: e :: t → [c, d, e] ∉ bannedTriples) := by
  have hb : ∀ t ∈ bannedTriples, ∀ c, t.head? = some c → ¬ Vowel c := by decide
  obtain ⟨l, hl, hv⟩ := vowelRafsi_ne h
  constructor
  · intro c d h1 _ h2
    rw [hl] at h1
    cases h1
    exact absurd h2 (vowel_not_consonant hv)
  · intro c d e t h1 _ hm
    rw [hl] at h1
    cases h1
    exact hb _ hm _ rfl hv

theorem joint_bare {mz : Bool} {x : Str} {k : Kind} {z : Slot} (hr : Rafsi mz z.rafsi) (hzt : ∃ h, z.text = z.rafsi ++ h)
    (hpair : ∀ c d, x.getLast? = some c → z.rafsi.head? = some d → Consonant c → PermissiblePair mz c d)
    (htri : ∀ c d e t, x.getLast? = some c → z.rafsi = d :: e :: t → [c, d, e] ∉ bannedTriples) : Joint mz ⟨x, k, x⟩ z := by
  obtain ⟨h, hzt⟩ := hzt
  obtain ⟨a, b, t, hab, -, ha⟩ := rafsi_double hr
  refine ⟨?_, ?_, ?_⟩
  · intro c d h1 h2 h3 h4
    rw [hzt, hab] at h2
    cases h2
    exact hpair c _ h1 (by rw [hab]; rfl) h3
  · intro c h1
    rw [hzt, hab]
    exact htri c a b t h1 hab
  · rintro (h1 | h1)
    · rw [hzt, hab] at h1
      cases h1
      exact absurd ha (by decide)
    · exact absurd hr (shape_rafsi h1)

theorem slot_cons {s : Settings} {last : Bool} {v x x' : Str} {e ys : List Str} {zs : List Slot} {txt : Str} (hz : Slotted s last e zs (x' :: ys) txt)
    (hB : BareSlots s.allowMz zs) (hx : Rafsi s.allowMz x ∧ Diph x) (hk : kindOf x = .vv ∨ kindOf x = .ccv ∨ kindOf x = .cvc) (hs : ShownRafsi x v)
    (hpair : ∀ c d, x.getLast? = some c → x'.head? = some d → Consonant c → PermissiblePair s.allowMz c d)
    (htri : ∀ c d e t, x.getLast? = some c → x' = d :: e :: t → [c, d, e] ∉ bannedTriples) :
    Slotted s last (v :: e) (⟨x, kindOf x, x⟩ :: zs) (x :: x' :: ys) (x ++ txt) ∧ BareSlots s.allowMz (⟨x, kindOf x, x⟩ :: zs) := by
  have hn := shown_names hx.1 hs
  obtain ⟨z, zs, rfl⟩ := List.exists_cons_of_ne_nil hz.ne
  have hzr : z.rafsi = x' := by have := hz.rafsi; simp at this; exact this.1
  subst hzr
  have hz1 := (hB.1 z (by simp)).1
  obtain ⟨h, hzt, -⟩ := hz.written [] z zs rfl
  rw [leading_rafsi hz1, List.nil_append] at hzt
  refine ⟨⟨by simp, .cons ⟨hn.usable, hn.spelled, hn.short⟩ hz.rep, ?_, ?_, ?_, by simp [← hz.rafsi], ?_, ?_⟩, ?_, ?_⟩
  · intro y hy
    rcases List.mem_cons.1 hy with rfl | hy
    · exact .rafsi hx.1 hx.2
    · exact hz.unit y hy
  · intro u y t e
    cases u with
    | nil =>
      cases e
      refine ⟨[], by simp [leading_rafsi hx.1], ?_⟩
      rcases hk with h | h | h <;> simp [h, Trailing]
    | cons a u =>
      injection e with e3 e4
      exact hz.written u y t e4
  · intro y w hb
    rcases beside_cons.1 hb with ⟨rfl, rfl⟩ | hb
    · exact joint_bare hz1 ⟨h, hzt⟩ hpair htri
    · exact hz.joints y w hb
  · have := hz.text
    simp only [List.map_cons, List.flatten_cons] at this ⊢
    rw [this]
  · intro hl y hy
    rw [List.getLast?_cons_cons] at hy
    exact hz.ends hl y hy
  · intro y hy
    rcases List.mem_cons.1 hy with rfl | hy
    · exact ⟨hx.1, rfl⟩
    · exact hB.1 y hy
  · intro u y t e ht
    cases u with
    | nil => cases e; rfl
    | cons a u =>
      injection e with e3 e4
      exact hB.2 u y t e4 ht

/-- Slots for rafsi with r and n between them. -/
theorem slotted_bare {s : Settings} {last trail : Bool} : ∀ (n : Nat) {xs e : List Str}, xs.length ≤ n → (∃ p, xs.head? = some p ∧ Rafsi s.allowMz p) →
    (∃ p, xs.getLast? = some p ∧ Rafsi s.allowMz p) → (∀ x ∈ xs, (Rafsi s.allowMz x ∧ Diph x) ∨ x ∈ [s%"r", s%"n"]) →
    (∀ u p q v, xs = u ++ p :: q :: v → Link s.yHyphens s.allowMz p q) → All2 ShownRafsi (xs.filter (fun x => ¬ Hyphen x)) e →
    (∀ x, xs.getLast? = some x → Trailing false last x (kindOf x) (suffix last trail)) →
    ∃ zs, Slotted s last e zs (xs.filter (fun x => ¬ Hyphen x)) ((xs.filter (fun x => ¬ Hyphen x)).flatten ++ suffix last trail) ∧ BareSlots s.allowMz zs := by
  intro n
  induction n with
  | zero =>
    intro xs e hn hf
    obtain ⟨p, hp, -⟩ := hf
    cases xs with
    | nil => cases hp
    | cons => simp at hn
  | succ n ih =>
    intro xs e hn hf hla hr hl hs ht
    obtain ⟨x, hx1, hxr⟩ := hf
    cases xs with
    | nil => cases hx1
    | cons x0 xs =>
      cases hx1
      have hx : Rafsi s.allowMz x ∧ Diph x := by
        rcases hr x (by simp) with h | h
        · exact h
        · exact absurd (glue_hyphen h) (rafsi_not_hyphen hxr)
      rw [filter_rafsi hxr] at hs ⊢
      generalize hfl : xs.filter (fun x => ¬ Hyphen x) = fl at hs
      cases hs with
      | @cons _ v _ e h1 h2 =>
      subst hfl
      have hn1 := shown_names hx.1 h1
      cases xs with
      | nil =>
        cases h2
        have := slotted_one (trail := trail) (.rafsi hx.1 hx.2) hn1.usable hn1.spelled hn1.short (ht x rfl)
        rw [leading_rafsi hx.1] at this
        refine ⟨_, by simpa using this, ?_, ?_⟩
        · intro z hz
          simp at hz
          subst hz
          exact ⟨hx.1, rfl⟩
        · intro u z t e ht
          have := congrArg List.length e
          cases t with
          | nil => exact absurd rfl ht
          | cons => simp at this; omega
      | cons x' xs =>
        have hk := hl [] x x' xs rfl
        rcases hr x' (by simp) with hx' | hx'
        · obtain ⟨zs, hz, hB⟩ := ih (xs := x' :: xs) (by simpa using hn) ⟨x', rfl, hx'.1⟩ (by simpa using hla) (fun y hy => hr y (List.mem_cons_of_mem _ hy))
            (fun u p q v e => hl (x :: u) p q v (by rw [e]; rfl)) h2 (fun y hy => ht y (by rw [List.getLast?_cons_cons]; exact hy))
          rw [filter_rafsi hx'.1] at hz ⊢
          have hyq := rafsi_notHyphen hx'.1
          generalize e1 : x = p at hk
          generalize e2 : x' = q at hk
          cases hk with
          | y => subst e2; simp [HYPHENS] at hyq
          | apostropheY => subst e2; simp [HYPHENS] at hyq
          | rOrN _ _ _ h => subst e2; simp at h; rcases h with rfl | rfl <;> simp [HYPHENS] at hyq
          | afterY h => have := rafsi_notHyphen hx.1; subst e1; simp at h; rcases h with rfl | rfl <;> simp [HYPHENS] at this
          | afterR => have := rafsi_notHyphen hx.1; subst e1; simp [HYPHENS] at this
          | afterN => have := rafsi_notHyphen hx.1; subst e1; simp [HYPHENS] at this
          | rafsi _ _ hsh hpair htri =>
            subst e1 e2
            have := slot_cons hz hB hx ((kind_short hx.1).1 hsh) h1 hpair htri
            exact ⟨_, by simpa using this.1, this.2⟩
        · cases xs with
          | nil =>
            obtain ⟨p, hp, hpr⟩ := hla
            cases hp
            exact absurd (glue_hyphen hx') (rafsi_not_hyphen hpr)
          | cons x'' xs =>
            have hv : VowelRafsi x := by
              have hg := glue_hyphen hx'
              generalize e1 : x = p at hk
              generalize e2 : x' = q at hk
              cases hk with
              | rOrN _ _ h => exact h
              | rafsi _ hq => subst e2; exact absurd hg (rafsi_not_hyphen hq)
              | y => subst e2; simp at hx'
              | apostropheY => subst e2; simp at hx'
              | afterY _ hq => subst e2; exact absurd hg (rafsi_not_hyphen hq)
              | afterR hq => subst e2; exact absurd hg (rafsi_not_hyphen hq)
              | afterN hq => subst e2; exact absurd hg (rafsi_not_hyphen hq)
            have hx'' : Rafsi s.allowMz x'' := by
              have hk2 := hl [x] x' x'' xs rfl
              have hg := glue_hyphen hx'
              generalize e1 : x' = p at hk2
              cases hk2 with
              | rafsi hp => subst e1; exact absurd hg (rafsi_not_hyphen hp)
              | y hp => subst e1; exact absurd hg (rafsi_not_hyphen hp)
              | apostropheY _ hp => subst e1; exact absurd hg (rafsi_not_hyphen hp)
              | rOrN _ hp => subst e1; exact absurd hg (rafsi_not_hyphen hp)
              | afterY _ hq => exact hq
              | afterR hq => exact hq
              | afterN hq => exact hq
            rw [filter_glue hx'] at h2 ⊢
            obtain ⟨zs, hz, hB⟩ := ih (xs := x'' :: xs) (by simp at hn ⊢; omega) ⟨x'', rfl, hx''⟩ (by simpa using hla)
              (fun y hy => hr y (List.mem_cons_of_mem _ (List.mem_cons_of_mem _ hy)))
              (fun u p q v e => hl (x :: x' :: u) p q v (by rw [e]; rfl)) h2
              (fun y hy => ht y (by rw [List.getLast?_cons_cons, List.getLast?_cons_cons]; exact hy))
            rw [filter_rafsi hx''] at hz ⊢
            obtain ⟨hpair, htri⟩ := vowel_joint s.allowMz hv x''
            have := slot_cons hz hB hx (.inl ((kind_vowelRafsi hx.1).1 hv)) h1 hpair htri
            exact ⟨_, by simpa using this.1, this.2⟩

end Jvotci
