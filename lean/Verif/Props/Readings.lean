import Verif.Lemmas.Cutter
import Verif.SpecPieces

/-!
# C37: decompositions into rafsi are unique
-/

namespace Jvotci

open Spec

theorem cuts_of_rafsi {mz : Bool} {p rest : Str} (h : Rafsi mz p)
    (hd : ∀ c a b, p = [c, a, b] → Vowel a → Vowel b → [a, b] ∈ [s%"ai", s%"ei", s%"oi", s%"au"])
    (h5 : p.length = 5 → rest = [])
    (h4 : p.length = 4 → '\'' ∉ p → rest = [] ∨ ∃ t, rest = 'y' :: t)
    (h1 : ∀ c d t, p.getLast? = some c → Consonant c → rest = d :: t → Consonant d → PermissiblePair mz c d)
    (h2 : ∀ c d e t, p.getLast? = some c → Consonant c → rest = d :: e :: t → [c, d, e] ∉ bannedTriples) :
    Cuts mz p rest := by
  have hc := fun c => (isConsonant_iff c).2
  have hv := fun c => (isVowel_iff c).2
  have na : ∀ {c}, (Consonant c ∨ Vowel c) → '\'' ≠ c := by
    rintro c h rfl; revert h; decide
  cases h with
  | cvv ha hb hcc => exact .cvv (hc _ ha) (hv _ hb) (hv _ hcc) (hd _ _ _ rfl hb hcc)
  | cvhv ha hb hcc => exact .cvhv (hc _ ha) (hv _ hb) (hv _ hcc)
  | cvc ha hb hcc =>
    exact .cvc (hc _ ha) (hv _ hb) (hc _ hcc) (fun d t e hd => h1 _ d t rfl hcc e ((isConsonant_iff d).1 hd))
      (fun d e t he => h2 _ d e t rfl hcc he)
  | ccv hi hcc => exact .ccv hi (hv _ hcc)
  | cvcc ha hb hp =>
    exact .cvcc (hc _ ha) (hv _ hb) hp (h4 rfl (by simp [na (.inl ha), na (.inr hb), na (.inl hp.1), na (.inl hp.2.1)]))
  | ccvc hi hb hcc =>
    have h := initial_cons hi
    exact .ccvc hi (hv _ hb) (hc _ hcc) (h4 rfl (by
      simp [na (.inl ((isConsonant_iff _).1 h.1)), na (.inl ((isConsonant_iff _).1 h.2)), na (.inr hb), na (.inl hcc)]))
  | gismu hg =>
    rw [h5 (by cases hg <;> rfl)]
    exact .gismu hg

theorem vowelRafsi_tarmi {mz : Bool} {p : Str} (h : Rafsi mz p) (hv : VowelRafsi p) :
    rafsiTarmi p = .cvv ∨ rafsiTarmi p = .cvhv := by
  obtain ⟨c, a, b, ha, hb, h'⟩ := hv
  have := rafsi_first h
  rcases h' with rfl | rfl
  · obtain ⟨_, _, e, hc⟩ := this
    cases e
    exact .inl (tarmi_cvv.2 ⟨c, a, b, rfl, hc, (isVowel_iff _).2 ha, (isVowel_iff _).2 hb⟩)
  · obtain ⟨_, _, e, hc⟩ := this
    cases e
    exact .inr (tarmi_cvhv.2 ⟨c, a, b, rfl, hc, (isVowel_iff _).2 ha, (isVowel_iff _).2 hb⟩)

theorem short_ne {p : Str} (h : Short p) : p.length ≠ 5 ∧ (p.length = 4 → '\'' ∈ p) := by
  rcases h with h | ⟨h, h'⟩
  · omega
  · exact ⟨by omega, fun _ => h'⟩

theorem links_chop {y : YHyphens} {mz : Bool} : ∀ (n : Nat) (v : List Str) (p : Str), v.length < n →
    (∀ u a b t, p :: v = u ++ a :: b :: t → Link y mz a b) →
    (∀ q ∈ p :: v, ∀ c a b, q = [c, a, b] → Vowel a → Vowel b → [a, b] ∈ [s%"ai", s%"ei", s%"oi", s%"au"]) →
    (∃ q, (p :: v).getLast? = some q ∧ Rafsi mz q) → Rafsi mz p → ∀ prev, Chop y mz prev (p :: v) := by
  intro n
  induction n with
  | zero => intro v p h; omega
  | succ n ih =>
    intro v p hn hl hd hlast hp prev
    have hlp := rafsi_length hp
    match v, hn, hl, hd, hlast with
    | [], hn, hl, hd, hlast =>
      refine .rafsi (cuts_of_rafsi hp (hd p (by simp)) (fun _ => rfl) (fun _ _ => .inl rfl) ?_ ?_) .nil
      · intro c d t _ _ e; cases e
      · intro c d e t _ _ e'; cases e'
    | q :: v, hn, hl, hd, hlast =>
      have hpq : Link y mz p q := hl [] p q v rfl
      have tail : ∀ {a : Str} {l : List Str}, (∀ u p' q' t, a :: l = u ++ p' :: q' :: t → Link y mz p' q') →
          ∀ u p' q' t, l = u ++ p' :: q' :: t → Link y mz p' q' :=
        fun {a l} h u p' q' t e => h (a :: u) p' q' t (by simp [e])
      -- after a hyphen comes a rafsi
      have after : ∀ h, q = h → Hyphen h → ∃ q' v', v = q' :: v' ∧ Link y mz h q' ∧ Rafsi mz q' ∧
          ∀ prev, Chop y mz prev (q' :: v') := by
        rintro h rfl hh
        match v, hn, hl, hd, hlast with
        | [], hn, hl, hd, hlast =>
          obtain ⟨q', e, hq'⟩ := hlast
          simp at e; subst e
          exact absurd hh (rafsi_not_hyphen hq')
        | q' :: v', hn, hl, hd, hlast =>
          have hlk : Link y mz q q' := hl [p] q q' v' rfl
          have hr : Rafsi mz q' := by
            generalize hqe : q = q0 at hlk hh
            cases hlk with
            | rafsi h1 _ => exact absurd hh (rafsi_not_hyphen h1)
            | y h1 => exact absurd hh (rafsi_not_hyphen h1)
            | apostropheY _ h1 => exact absurd hh (rafsi_not_hyphen h1)
            | rOrN _ h1 => exact absurd hh (rafsi_not_hyphen h1)
            | afterY _ h1 => exact h1
            | afterR h1 => exact h1
            | afterN h1 => exact h1
          refine ⟨q', v', rfl, hlk, hr, ih v' q' (by simp at hn; omega) (tail (tail hl)) (fun r hr => hd r ?_) ?_ hr⟩
          · simp only [List.mem_cons] at hr ⊢; exact .inr (.inr hr)
          · simpa using hlast
      have hd' := hd p (by simp)
      generalize hqe : q = q0 at hpq
      cases hpq with
      | rafsi _ hq hs h1 h2 =>
        subst hqe
        have hch := ih v q (by simp at hn; omega) (tail hl) (fun r hr => hd r (List.mem_cons_of_mem _ hr)) (by simpa using hlast) hq
        refine .rafsi (cuts_of_rafsi hp hd' (fun h => absurd h (short_ne hs).1) (fun h h' => absurd ((short_ne hs).2 h) h') ?_ ?_) (hch _)
        · intro c d t hl hc e _
          refine h1 c d hl ?_ hc
          have := rafsi_length hq
          match q, this with
          | _ :: _, _ => cases e; rfl
        · intro c d e t hlc hc he
          have := rafsi_length hq
          match q, this with
          | x :: x' :: q', _ => cases he; exact h2 _ _ _ q' hlc rfl
      | y _ hp4 =>
        obtain ⟨q', v', rfl, hlk, hr, hch⟩ := after _ hqe (by decide)
        refine .rafsi (cuts_of_rafsi hp hd' (fun h => by omega) (fun _ _ => .inr ⟨_, rfl⟩) ?_ ?_) (.y (by omega) (hch _))
        · intro c d t hl hc e hd; cases e; exact absurd hd (by decide)
        · intro c d e t hl hc he h
          have hd : d = 'y' := by simpa [join] using (congrArg List.head? he).symm
          subst hd
          revert h
          simp [bannedTriples]
      | apostropheY hy _ hs =>
        obtain ⟨q', v', rfl, hlk, hr, hch⟩ := after _ hqe (by decide)
        refine .rafsi (cuts_of_rafsi hp hd' (fun h => absurd h (short_ne hs).1) (fun h h' => absurd ((short_ne hs).2 h) h') ?_ ?_)
          (.hy (by omega) hy (hch _))
        · intro c d t hl hc e hd; cases e; exact absurd hd (by decide)
        · intro c d e t hl hc he h
          have hd : d = '\'' := by simpa [join] using (congrArg List.head? he).symm
          subst hd
          revert h
          simp [bannedTriples]
      | rOrN hy _ hs hq =>
        have hhy : Hyphen q0 := by
          simp only [List.mem_cons, List.not_mem_nil, or_false] at hq
          rcases hq with rfl | rfl <;> decide
        obtain ⟨q', v', rfl, hlk, hr, hch⟩ := after _ hqe hhy
        have ht := vowelRafsi_tarmi hp hs
        have hnc : ∀ c, p.getLast? = some c → Consonant c → False := by
          obtain ⟨_, _, b, _, hb, rfl | rfl⟩ := hs <;> intro c hc hcc <;> simp at hc <;> subst hc <;>
            exact absurd ((isConsonant_iff _).2 hcc) (by simp [not_consonant_of_vowel ((isVowel_iff _).2 hb)])
        have hsh : Short p := by
          obtain ⟨_, _, b, _, hb, rfl | rfl⟩ := hs
          · exact .inl rfl
          · exact .inr ⟨rfl, by simp⟩
        obtain ⟨c, t, rfl, hc⟩ := rafsi_first hr
        refine .rafsi (cuts_of_rafsi hp hd' (fun h => absurd h (short_ne hsh).1) (fun h h' => absurd ((short_ne hsh).2 h) h')
          (fun c d t hl hc => (hnc c hl hc).elim) (fun c d e t hl hc => (hnc c hl hc).elim)) ?_
        simp only [List.mem_cons, List.not_mem_nil, or_false] at hq
        rcases hq with rfl | rfl
        · refine .r (by omega) hy ht rfl hc ?_ (hch _)
          generalize hq0 : s%"r" = q0 at hlk
          cases hlk with
          | afterR _ h => simpa using h
          | afterN => cases hq0
          | afterY h => subst hq0; exact absurd h (by decide)
          | rafsi h1 => subst hq0; exact absurd (show Hyphen s%"r" by decide) (rafsi_not_hyphen h1)
          | y h1 => subst hq0; exact absurd (show Hyphen s%"r" by decide) (rafsi_not_hyphen h1)
          | apostropheY _ h1 => subst hq0; exact absurd (show Hyphen s%"r" by decide) (rafsi_not_hyphen h1)
          | rOrN _ h1 => subst hq0; exact absurd (show Hyphen s%"r" by decide) (rafsi_not_hyphen h1)
        · have : c = 'r' := by
            generalize hq0 : s%"n" = q0 at hlk
            cases hlk with
            | afterN _ h => simpa using h
            | afterR => cases hq0
            | afterY h => subst hq0; exact absurd h (by decide)
            | rafsi h1 => subst hq0; exact absurd (show Hyphen s%"n" by decide) (rafsi_not_hyphen h1)
            | y h1 => subst hq0; exact absurd (show Hyphen s%"n" by decide) (rafsi_not_hyphen h1)
            | apostropheY _ h1 => subst hq0; exact absurd (show Hyphen s%"n" by decide) (rafsi_not_hyphen h1)
            | rOrN _ h1 => subst hq0; exact absurd (show Hyphen s%"n" by decide) (rafsi_not_hyphen h1)
          subst this
          exact .n (by omega) hy ht rfl (hch _)
      | afterY h => 
        have : Hyphen p := by
          simp only [List.mem_cons, List.not_mem_nil, or_false] at h
          rcases h with rfl | rfl <;> decide
        exact absurd this (rafsi_not_hyphen hp)
      | afterR => exact absurd (show Hyphen s%"r" by decide) (rafsi_not_hyphen hp)
      | afterN => exact absurd (show Hyphen s%"n" by decide) (rafsi_not_hyphen hp)

/-- **C37.** The rafsi cutter finds every reading of a string. -/
theorem C37_reading_found {y : YHyphens} {mz : Bool} {ps : List Str} (h : Reading y mz ps) :
    jvokaha2 y mz ps.flatten = .ok ps := by
  obtain ⟨⟨p, hf, hp⟩, hl, hd, hlk, hs⟩ := h
  match ps, hf with
  | q :: v, hf =>
    cases hf
    refine jvokaha2_chop (links_chop (v.length + 1) v p (by omega) hlk hd hl hp none) ?_
    intro p' t e hp' ht
    cases e
    obtain ⟨a, b, c, rfl, ha, hb, hc⟩ := tarmi_ccv.1 hp'
    match v, hlk, ht, hs with
    | [], _, ht, _ => cases ht
    | q :: v, hlk, ht, hs =>
      have : Link y mz _ q := hlk [] _ q v rfl
      generalize hpe : [a, b, c] = p at this
      cases this with
      | rafsi _ hq =>
        obtain ⟨x, q', rfl, hx⟩ := rafsi_first hq
        simp [join] at ht
        obtain ⟨rfl, -⟩ := ht
        exact absurd hx (by decide)
      | y => simp [join] at ht
      | apostropheY => exact hs a b c v ((isConsonant_iff b).1 hb) (by rw [hpe])
      | rOrN _ _ _ hq =>
        simp only [List.mem_cons, List.not_mem_nil, or_false] at hq
        rcases hq with rfl | rfl <;> simp [join] at ht
      | afterY h =>
        subst hpe
        simp at h
      | afterR => cases hpe
      | afterN => cases hpe


/-- **C37.** No string has two readings. -/
theorem C37_reading_unique {y : YHyphens} {mz : Bool} {ps ps' : List Str} (h : Reading y mz ps)
    (h' : Reading y mz ps') (he : ps.flatten = ps'.flatten) : ps = ps' := by
  have h1 := C37_reading_found h
  rw [he, C37_reading_found h'] at h1
  cases h1
  rfl

/-- What the piece `p` asks of the letters after it. -/
def Before (mz : Bool) (p rest : Str) : Prop :=
  Cuts mz p rest ∨ p ∈ [s%"y", s%"'y"] ∨ (p = s%"r" ∧ ∃ c t, rest = c :: t ∧ c ≠ 'r') ∨
    (p = s%"n" ∧ ∃ t, rest = 'r' :: t)

theorem before_cuts {mz : Bool} {p rest : Str} (h : Before mz p rest) (hh : ¬ Hyphen p) : Cuts mz p rest := by
  rcases h with h | h | ⟨rfl, -⟩ | ⟨rfl, -⟩
  · exact h
  · exfalso
    simp only [List.mem_cons, List.not_mem_nil, or_false] at h
    rcases h with rfl | rfl <;> exact hh (by decide)
  · exact absurd (by decide) hh
  · exact absurd (by decide) hh

theorem cuts_short {mz : Bool} {p : Str} {c : Char} {t : Str} (h : Cuts mz p (c :: t)) (hc : c ≠ 'y') : Short p := by
  generalize hr : c :: t = rest at h
  cases h with
  | cvv => exact .inl rfl
  | cvhv => exact .inr ⟨rfl, by simp⟩
  | cvc => exact .inl rfl
  | ccv => exact .inl rfl
  | gismu => cases hr
  | cvcc _ _ _ h =>
    subst hr
    rcases h with h | ⟨_, h⟩
    · cases h
    · cases h; exact absurd rfl hc
  | ccvc _ _ _ h =>
    subst hr
    rcases h with h | ⟨_, h⟩
    · cases h
    · cases h; exact absurd rfl hc

theorem cuts_four {mz : Bool} {p : Str} {c : Char} {t : Str} (h : Cuts mz p (c :: t)) : p.length < 5 := by
  generalize hr : c :: t = rest at h
  cases h with
  | gismu => cases hr
  | _ => simp

theorem tarmi_vowelRafsi {p : Str} (h : rafsiTarmi p = .cvv ∨ rafsiTarmi p = .cvhv) : VowelRafsi p := by
  rcases h with h | h
  · obtain ⟨a, b, c, rfl, -, hb, hc⟩ := tarmi_cvv.1 h
    exact ⟨a, b, c, (isVowel_iff _).1 hb, (isVowel_iff _).1 hc, .inl rfl⟩
  · obtain ⟨a, b, c, rfl, -, hb, hc⟩ := tarmi_cvhv.1 h
    exact ⟨a, b, c, (isVowel_iff _).1 hb, (isVowel_iff _).1 hc, .inr rfl⟩

theorem cuts_link {y : YHyphens} {mz : Bool} {p q rest : Str} (h : Cuts mz p (q ++ rest)) (hq : Rafsi mz q) :
    Link y mz p q := by
  obtain ⟨d, t, rfl, hd⟩ := rafsi_first hq
  have hd' := (isConsonant_iff d).1 hd
  refine .rafsi h.rafsi hq (cuts_short h (consonant_ne_y hd').1) ?_ ?_
  · intro c e hc he hcc
    simp at he; subst he
    generalize hr : d :: t ++ rest = rest' at h
    cases h with
    | cvv _ _ hv => simp at hc; subst hc; exact absurd ((isConsonant_iff _).2 hcc) (by simp [not_consonant_of_vowel hv])
    | cvhv _ _ hv => simp at hc; subst hc; exact absurd ((isConsonant_iff _).2 hcc) (by simp [not_consonant_of_vowel hv])
    | ccv _ hv => simp at hc; subst hc; exact absurd ((isConsonant_iff _).2 hcc) (by simp [not_consonant_of_vowel hv])
    | cvc _ _ _ h1 => simp at hc; subst hc; exact h1 d _ hr.symm hd
    | gismu => cases hr
    | cvcc _ _ _ h =>
      subst hr
      rcases h with h | ⟨_, h⟩ <;> cases h
      exact absurd hd (by decide)
    | ccvc _ _ _ h =>
      subst hr
      rcases h with h | ⟨_, h⟩ <;> cases h
      exact absurd hd (by decide)
  · intro c e f u hc he
    cases he
    generalize hr : d :: f :: u ++ rest = rest' at h
    have hban : ∀ c, isVowel c = true → [c, d, f] ∉ bannedTriples := by
      intro c hv hh
      have : ∀ t ∈ bannedTriples, t.head? = some 'n' := by decide
      have := this _ hh
      simp at this
      subst this
      exact absurd hv (by decide)
    cases h with
    | cvv _ _ hv => simp at hc; subst hc; exact hban _ hv
    | cvhv _ _ hv => simp at hc; subst hc; exact hban _ hv
    | ccv _ hv => simp at hc; subst hc; exact hban _ hv
    | cvc _ _ _ _ h1 => simp at hc; subst hc; exact h1 d f _ hr.symm
    | gismu => cases hr
    | cvcc _ _ _ h =>
      subst hr
      rcases h with h | ⟨_, h⟩ <;> cases h
      exact absurd hd (by decide)
    | ccvc _ _ _ h =>
      subst hr
      rcases h with h | ⟨_, h⟩ <;> cases h
      exact absurd hd (by decide)

theorem chop_links {y : YHyphens} {mz : Bool} {prev : Option Str} {ps : List Str} (h : Chop y mz prev ps) :
    ∀ p, prev = some p → Before mz p (join ps) →
    (∀ u a b t, p :: ps = u ++ a :: b :: t → ¬ (Hyphen a ∧ Hyphen b)) →
    ∀ u a b t, p :: ps = u ++ a :: b :: t → Link y mz a b := by
  have tail : ∀ {x : Str} {l : List Str}, (∀ u p' q' t, x :: l = u ++ p' :: q' :: t → ¬ (Hyphen p' ∧ Hyphen q')) →
      ∀ u p' q' t, l = u ++ p' :: q' :: t → ¬ (Hyphen p' ∧ Hyphen q') :=
    fun {x l} h u p' q' t e => h (x :: u) p' q' t (by simp [e])
  have step : ∀ {x q : Str} {l : List Str}, Link y mz x q → (∀ u a b t, q :: l = u ++ a :: b :: t → Link y mz a b) →
      ∀ u a b t, x :: q :: l = u ++ a :: b :: t → Link y mz a b := by
    intro x q l h1 h2 u a b t e
    match u, e with
    | [], e => cases e; exact h1
    | z :: u, e => simp at e; exact h2 u a b t e.2
  induction h with
  | nil =>
    intro p _ _ _ u a b t e
    match u, e with
    | [], e => cases e
    | _ :: u, e => simp at e
  | @y p' ps' h1 h2 ih =>
    intro p e hb hn
    cases e
    have hnp : ¬ Hyphen p' := fun h => hn [] p' _ ps' rfl ⟨h, by decide⟩
    have hc := before_cuts hb hnp
    exact step (.y hc.rafsi (cuts_four hc)) (ih _ rfl (.inr (.inl (by decide))) (tail hn))
  | @n p' ps' t h1 hy ht hj h2 ih =>
    intro p e hb hn
    cases e
    have hnp : ¬ Hyphen p' := fun h => hn [] p' _ ps' rfl ⟨h, by decide⟩
    have hc := before_cuts hb hnp
    exact step (.rOrN hy hc.rafsi (tarmi_vowelRafsi ht) (by decide)) (ih _ rfl (.inr (.inr (.inr ⟨rfl, t, hj⟩))) (tail hn))
  | @r p' ps' c t h1 hy ht hj hcc hcr h2 ih =>
    intro p e hb hn
    cases e
    have hnp : ¬ Hyphen p' := fun h => hn [] p' _ ps' rfl ⟨h, by decide⟩
    have hc := before_cuts hb hnp
    exact step (.rOrN hy hc.rafsi (tarmi_vowelRafsi ht) (by decide))
      (ih _ rfl (.inr (.inr (.inl ⟨rfl, c, t, hj, hcr⟩))) (tail hn))
  | @hy p' ps' h1 hy h2 ih =>
    intro p e hb hn
    cases e
    have hnp : ¬ Hyphen p' := fun h => hn [] p' _ ps' rfl ⟨h, by decide⟩
    have hc := before_cuts hb hnp
    exact step (.apostropheY hy hc.rafsi (cuts_short hc (by decide))) (ih _ rfl (.inr (.inl (by decide))) (tail hn))
  | @rafsi prev q ps' hq h2 ih =>
    intro p e hb hn
    refine step ?_ (ih _ rfl (.inl hq) (tail hn))
    rcases hb with h | h | ⟨rfl, c, t, hj, hc⟩ | ⟨rfl, t, hj⟩
    · exact cuts_link h hq.rafsi
    · exact .afterY h hq.rafsi
    · refine .afterR hq.rafsi ?_
      obtain ⟨x, q', rfl, -⟩ := rafsi_first hq.rafsi
      cases hj
      simpa using hc
    · refine .afterN hq.rafsi ?_
      obtain ⟨x, q', rfl, -⟩ := rafsi_first hq.rafsi
      cases hj
      rfl

theorem chop_pieces {y : YHyphens} {mz : Bool} {prev : Option Str} {ps : List Str} (h : Chop y mz prev ps) :
    ∀ p ∈ ps, Hyphen p ∨ ∃ rest, Cuts mz p rest := by
  induction h with
  | nil => simp
  | rafsi hc _ ih => 
    intro p hp
    rcases List.mem_cons.1 hp with rfl | hp
    · exact .inr ⟨_, hc⟩
    · exact ih p hp
  | _ => 
    rename_i ih
    intro p hp
    rcases List.mem_cons.1 hp with rfl | hp
    · exact .inl (by decide)
    · exact ih p hp

theorem ccv_apostropheY {y : YHyphens} {mz : Bool} {a b c : Char} {t : Str} (hc : Vowel c)
    (hab : InitialPair a b) : jvokaha2 y mz (a :: b :: c :: '\'' :: 'y' :: t) = .error .notBrivla := by
  have h := initial_cons hab
  have hv := (isVowel_iff c).2 hc
  have hi := initial_contains.2 hab
  simp at hi
  have hbv := not_vowel_of_consonant h.2
  have hav := not_vowel_of_consonant h.1
  have hcc := not_consonant_of_vowel hv
  have hg : ¬ (rafsiTarmi (a :: b :: c :: '\'' :: 'y' :: t) = .cvccv ∨ rafsiTarmi (a :: b :: c :: '\'' :: 'y' :: t) = .ccvcv) := by
    rintro (h | h)
    · obtain ⟨_, _, _, _, _, e, _⟩ := tarmi_cvccv.1 h
      cases e
      simp_all
    · obtain ⟨_, _, _, _, _, e, _⟩ := tarmi_ccvcv.1 h
      cases e
      simp_all [apos_isConsonant]
  have h1 : takeRafsi mz (a :: b :: c :: '\'' :: 'y' :: t) (a :: b :: c :: '\'' :: 'y' :: t) = .error .notBrivla := by
    unfold takeRafsi
    dsimp only
    rw [if_neg (by simp [slice, rafsiTarmi, h.1, h.2, hv, hbv]), if_neg (by simp [slice, rafsiTarmi, h.1, h.2, hv, hbv, apos_isConsonant]),
      if_neg (by simp [slice, rafsiTarmi, h.1, h.2, hv, hbv, apos_isConsonant]),
      if_neg (by simp [slice, rafsiTarmi, h.1, h.2, hv, hbv, apos_isConsonant]), if_neg hg,
      if_neg (by simp [slice, rafsiTarmi, h.1, h.2, hv, hbv]), if_pos (by simp [slice, rafsiTarmi, h.1, h.2, hv, hbv]),
      if_neg (by simpa [slice] using hi), if_pos (by simp [slice])]
  unfold jvokaha2 jvokaha2Loop
  rw [if_neg (by simp)]
  simp [takeHyphen, h1, bind, Except.bind]

/-- **C37.** Whatever the rafsi cutter returns is a reading of the string, unless it ends in a hyphen or has two
hyphens in a row. -/
theorem C37_only_readings {y : YHyphens} {mz : Bool} {w : Str} {ps : List Str} (h : jvokaha2 y mz w = .ok ps)
    (hw : w ≠ []) (hl : ∀ p, ps.getLast? = some p → ¬ Hyphen p)
    (hn : ∀ u p q v, ps = u ++ p :: q :: v → ¬ (Hyphen p ∧ Hyphen q)) :
    ps.flatten = w ∧ Reading y mz ps := by
  obtain ⟨hj, hch⟩ := jvokaha2_ok h
  refine ⟨hj, ?_⟩
  match ps, hch, hw, hj, hl, hn with
  | [], _, hw, hj, _, _ => exact absurd hj.symm hw
  | p :: ps', .rafsi hc hch', hw, hj, hl, hn =>
    have hpc := chop_pieces (Chop.rafsi (prev := none) hc hch')
    refine ⟨⟨p, rfl, hc.rafsi⟩, ?_, ?_, chop_links hch' p rfl (.inl hc) hn, ?_⟩
    · cases hgl : (p :: ps').getLast? with
      | none => simp at hgl
      | some q =>
        refine ⟨q, rfl, ?_⟩
        rcases hpc q (List.mem_of_getLast? hgl) with hh | ⟨_, hh⟩
        · exact absurd hh (hl q hgl)
        · exact hh.rafsi
    · rintro q hq c a b rfl ha hb
      rcases hpc _ hq with hh | ⟨_, hh⟩
      · simp [Hyphen] at hh
        obtain ⟨-, rfl, -⟩ := hh
        exact absurd ha (by decide)
      · generalize hqe : [c, a, b] = q at hh
        cases hh with
        | cvv _ _ _ h => cases hqe; exact h
        | cvc _ _ h => cases hqe; exact absurd h (by simp [not_consonant_of_vowel ((isVowel_iff _).2 hb)])
        | ccv h => cases hqe; exact absurd (initial_cons h).2 (by simp [not_consonant_of_vowel ((isVowel_iff _).2 ha)])
        | gismu h => subst hqe; cases h
        | cvhv => cases hqe
        | cvcc => cases hqe
        | ccvc => cases hqe
    · intro a b c v hb he
      cases he
      have hi : InitialPair a b ∧ Vowel c := by
        cases hc with
        | cvv _ h => exact absurd ((isConsonant_iff b).2 hb) (by simp [not_consonant_of_vowel h])
        | cvc _ h => exact absurd ((isConsonant_iff b).2 hb) (by simp [not_consonant_of_vowel h])
        | ccv h h' => exact ⟨h, (isVowel_iff c).1 h'⟩
      have := ccv_apostropheY (y := y) (mz := mz) (t := join v) hi.2 hi.1
      rw [← hj] at h
      rw [show join ([a, b, c] :: s%"'y" :: v) = a :: b :: c :: '\'' :: 'y' :: join v from rfl, this] at h
      cases h

/-- The hypotheses of `C37_only_readings` about hyphens, as a test. -/
def hyphensApart : List Str → Bool
  | p :: q :: v => !(decide (Hyphen p) && decide (Hyphen q)) && hyphensApart (q :: v)
  | [p] => !decide (Hyphen p)
  | [] => true

theorem hyphensApart_spec : ∀ {ps : List Str}, hyphensApart ps = true →
    (∀ p, ps.getLast? = some p → ¬ Hyphen p) ∧ ∀ u p q v, ps = u ++ p :: q :: v → ¬ (Hyphen p ∧ Hyphen q)
  | [], _ => by simp
  | [p], h => by
    refine ⟨by simpa [hyphensApart] using h, ?_⟩
    rintro (_ | ⟨a, _ | ⟨b, u⟩⟩) p q v e <;> simp at e
  | p :: q :: v, h => by
    simp only [hyphensApart, Bool.and_eq_true] at h
    have ih := hyphensApart_spec h.2
    refine ⟨fun r hr => ih.1 r (by simpa using hr), ?_⟩
    rintro (_ | ⟨a, u⟩) p' q' v' e
    · cases e; rintro ⟨h1, h2⟩; simp [h1, h2] at h
    · simp at e; exact ih.2 u p' q' v' e.2

/-- Three cases: all hyphens; no hyphens; a tosmabru-like start. The hypotheses of the three theorems are met. -/
example :
    Reading .allowY false [s%"lat", s%"y", s%"mai", s%"r", s%"ke'o", s%"n", s%"ric", s%"'y", s%"kelr", s%"y", s%"kerlo"] ∧
    Reading .standard false [s%"bla", s%"mlu", s%"mot", s%"ckul"] ∧
    Reading .forceY true [s%"jam", s%"zuz", s%"y", s%"zmadu"] :=
  ⟨(C37_only_readings (w := s%"latymairke'onric'ykelrykerlo") (by decide +kernel) (by decide)
      (hyphensApart_spec (by decide)).1 (hyphensApart_spec (by decide)).2).2,
   (C37_only_readings (w := s%"blamlumotckul") (by decide +kernel) (by decide)
      (hyphensApart_spec (by decide)).1 (hyphensApart_spec (by decide)).2).2,
   (C37_only_readings (w := s%"jamzuzyzmadu") (by decide +kernel) (by decide)
      (hyphensApart_spec (by decide)).1 (hyphensApart_spec (by decide)).2).2⟩

end Jvotci
