import Verif.Lemmas.Shown
import Verif.Lemmas.Exchange
import Verif.Lemmas.GluedSlots

/-!
# What get_veljvo shows for a part between two y
-/

namespace Jvotci

open Spec

theorem search_unreadable {s : Settings} {x : Str} (hl : ∀ c ∈ x, Vowel c ∨ Consonant c ∨ c = '\'') (h : Unreadable s x) : searchSelrafsi x = none := by
  cases hs : searchSelrafsi x with
  | none => rfl
  | some g =>
    exfalso
    have one : ∀ {x : Str}, Unreadable s x → Rafsi false x → Diph x → False := by
      intro x h hr hd
      exact h [x] (reading_oneRafsi (rafsi_mono (mz := s.allowMz) hr) hd) (by simp)
    rcases searchSelrafsi_some hs with ⟨rs, h1, h2⟩ | ⟨h4, hq, -, u, rs, hu, rfl, ht⟩
    · exact one h (isValidRafsi_iff.1 (table_shapes _ h1 _ h2).2) (table_diph h1 h2)
    · have hvq : '\'' ≠ u := fun e => by subst e; revert hu; decide
      rcases table_gismu ht (by simp [h4]) (by simp [hq, hvq]) with hg | hg
      · exact one h (gismu_cut hg).1 (diph_long (by omega))
      · have := hl 'P' (by
          match x, h4, hg with
          | [a, b, c, d], _, hg => cases hg; simp)
        exact absurd this (by decide)

theorem zpart_whole {s : Settings} {last nl : Bool} {cl : Prop} {p : YPart} (h : ZihevlaPart s last nl cl p) (hlen : p.core.length + 1 < 10 ^ 93)
    (h2 : ∃ n, Syllables .nothing (p.whole last) n ∧ 2 ≤ n) : ZWhole s (p.whole last) := by
  have hF : ZihevlaForm s.allowMz (p.whole last) := ⟨h.sounds, h.vowel, h.cluster, h2⟩
  have hle : (p.whole last).length < 10 ^ 95 := by
    refine Nat.lt_of_lt_of_le (Nat.lt_of_le_of_lt ?_ hlen) (Nat.pow_le_pow_right (by decide) (by decide))
    unfold YPart.whole
    split <;> simp
  refine ⟨hF, (tails_iff hF hle).1 ((together_iff h.sounds h.vowel h.cluster hle).2 h.together), h.slinkuhi, ?_⟩
  unfold YPart.whole
  split
  · rename_i hc
    exact h.notRafsi hc.1 hc.2
  · rename_i hc
    refine h.unreadable ?_
    cases ht : p.trail with
    | true => exact .inl rfl
    | false =>
      cases last with
      | true => exact .inr (.inl rfl)
      | false => exact absurd ⟨ht, rfl⟩ hc

theorem zwhole_brivla {s : Settings} {x : Str} (h : ZWhole s x) (hlen : x.length < 10 ^ 93) :
    isBrivla .linked { yHyphens := s.yHyphens, allowMz := s.allowMz } x = .ok true := by
  rw [C48_brivla hlen, reading_letters h.form.sounds.letters]
  exact .inr (.inr (.inl ⟨h.form, h.together, h.slinkuhi⟩))

/-- Letters only, the first and last no apostrophes. -/
theorem sounds_clean {mz : Bool} {x : Str} (h : Sounds mz x) (hne : x ≠ []) : Clean x := by
  refine ⟨?_, ?_, h.letters⟩
  · match x, hne with
    | c :: x, _ =>
      refine ⟨c, rfl, ?_⟩
      rcases h.letters c (by simp) with hc | hc | rfl
      · exact .inl hc
      · exact .inr hc
      · obtain ⟨⟨a, ha, -⟩, -⟩ := h.apostrophe [] x rfl
        cases ha
  · refine ⟨x.getLast hne, List.getLast?_eq_some_getLast hne, ?_⟩
    rcases h.letters _ (List.getLast_mem hne) with hc | hc | hc
    · exact .inl hc
    · exact .inr hc
    · obtain ⟨-, ⟨a, ha, -⟩⟩ := h.apostrophe x.dropLast [] (by rw [← hc]; exact (List.dropLast_concat_getLast hne).symm)
      cases ha

theorem clean_cut {x : Str} (h : Clean (x ++ s%"a")) (hne : x ≠ []) (he : x.getLast? ≠ some '\'') : Clean x := by
  refine ⟨?_, ?_, fun c hc => h.letters c (List.mem_append_left _ hc)⟩
  · match x, hne with
    | c :: x, _ =>
      obtain ⟨d, hd, h⟩ := h.first
      cases hd
      exact ⟨c, rfl, h⟩
  · refine ⟨x.getLast hne, List.getLast?_eq_some_getLast hne, ?_⟩
    rcases h.letters _ (List.mem_append_left _ (List.getLast_mem hne)) with hc | hc | hc
    · exact .inl hc
    · exact .inr hc
    · rw [List.getLast?_eq_some_getLast hne, hc] at he
      exact absurd rfl he

/-- No hyphen. -/
theorem core_notHyphen {x : Str} (hne : x ≠ []) (hy : 'y' ∉ x) (h : 1 < x.length ∨ ∃ c, x.getLast? = some c ∧ Vowel c) :
    (HYPHENS.contains x || x.isEmpty) = false := by
  have : ¬ Hyphen x := by
    intro hh
    simp only [Hyphen, List.mem_cons, List.not_mem_nil, or_false] at hh
    rcases hh with rfl | rfl | rfl | rfl | rfl | rfl
    · rcases h with h | ⟨c, hc, hv⟩
      · simp at h
      · cases hc; exact absurd hv (by decide)
    · rcases h with h | ⟨c, hc, hv⟩
      · simp at h
      · cases hc; exact absurd hv (by decide)
    all_goals simp at hy
  have hc : HYPHENS.contains x = false := by
    rw [Bool.eq_false_iff]
    exact fun h => this (hyphens_iff.1 h)
  rw [hc]
  simpa using hne

theorem entryOf_none {s : Settings} {x e : Str} {v : List Str} (hs : searchSelrafsi x = none) (hn : v = [] ∨ ∃ g t, v = ('\'' :: g) :: t)
    (h : entryOf s x v = .ok e) :
    (isBrivla .linked { yHyphens := s.yHyphens, allowMz := s.allowMz } x = .ok true ∧ e = x) ∨
    (isBrivla .linked { yHyphens := s.yHyphens, allowMz := s.allowMz } x = .ok false ∧
      e = if v = [] ∧ isBrivla .linked { yHyphens := s.yHyphens, allowMz := s.allowMz } (x ++ s%"a") = .ok true then x ++ s%"-" else s%"-" ++ x ++ s%"-") := by
  unfold entryOf at h
  rw [hs] at h
  dsimp only at h
  have hny : (if 1 < v.length then do
        let c ← idx ((v.head?).getD []) 0
        Except.ok (c == 'y')
      else Except.ok false) = (Except.ok false : Except Err Bool) := by
    rcases hn with rfl | ⟨g, t, rfl⟩
    · rfl
    · split <;> rfl
  rw [hny] at h
  obtain ⟨y1, hy1, h⟩ := bind_ok h
  cases hy1
  obtain ⟨y1, hy1, h⟩ := bind_ok h
  cases hy1
  obtain ⟨y2, hy2, h⟩ := bind_ok h
  cases y2 with
  | true => cases h; exact .inl ⟨hy2, rfl⟩
  | false =>
    refine .inr ⟨hy2, ?_⟩
    obtain ⟨y3, hy3, h⟩ := bind_ok h
    by_cases hv : v = []
    · rw [if_pos hv] at hy3
      cases y3 with
      | true => cases h; rw [if_pos ⟨hv, hy3⟩]
      | false =>
        cases h
        rw [if_neg]
        rintro ⟨-, h⟩
        rw [hy3] at h
        cases h
    · rw [if_neg hv] at hy3
      cases hy3
      cases h
      rw [if_neg (fun h => hv h.1)]

theorem entryOf_y {s : Settings} {x e g q : Str} {t : List Str} (hs : searchSelrafsi x = none)
    (hb : isBrivla .linked { yHyphens := s.yHyphens, allowMz := s.allowMz } (x ++ s%"a") = .ok true)
    (h : entryOf s x (('y' :: g) :: q :: t) = .ok e) : e = x ++ s%"-" := by
  unfold entryOf at h
  rw [hs] at h
  dsimp only at h
  rw [if_pos (by simp)] at h
  obtain ⟨y1, hy1, h⟩ := bind_ok h
  cases hy1
  simp only [beq_self_eq_true, if_true, hb] at h
  cases h
  rfl

/-- What comes after a part. -/
def Then (p : YPart) (last : Bool) (rest : List Str) : Prop :=
  if last then rest = [] ∧ p.trail = false else ∃ g q t, rest = ((if p.trail then s%"'" else []) ++ s%"y" ++ g) :: q :: t

theorem Then.cases {p : YPart} {last : Bool} {rest : List Str} (h : Then p last rest) :
    (last = true ∧ rest = [] ∧ p.trail = false) ∨ (last = false ∧ p.trail = true ∧ ∃ g t, rest = ('\'' :: g) :: t) ∨
    (last = false ∧ p.trail = false ∧ ∃ g q t, rest = ('y' :: g) :: q :: t) := by
  unfold Then at h
  cases last with
  | true => exact .inl ⟨rfl, h⟩
  | false =>
    obtain ⟨g, q, t, rfl⟩ := h
    cases p.trail with
    | true => exact .inr (.inl ⟨rfl, rfl, _, _, rfl⟩)
    | false => exact .inr (.inr ⟨rfl, rfl, _, _, _, rfl⟩)

theorem reading_shown {s : Settings} {p : YPart} {last : Bool} {rest r : List Str} (hr : Reading s.yHyphens s.allowMz p.pieces)
    (hc : p.pieces.flatten = p.core) (ht : p.trail = true → ∃ c, p.core.getLast? = some c ∧ Vowel c)
    (he : p.trail = false → last = false → ∃ c, p.core.getLast? = some c ∧ Consonant c) (ha : Then p last rest)
    (h : entries s (p.pieces ++ rest) = .ok r) :
    ∃ e r', r = e ++ r' ∧ All2 ShownRafsi (p.pieces.filter (fun x => ¬ Hyphen x)) e ∧ entries s rest = .ok r' := by
  refine entries_reading hr.links hr.last ?_ h
  intro x hx
  have hxr : Rafsi s.allowMz x := by
    obtain ⟨y, hy, h⟩ := hr.last
    rw [hx] at hy
    cases hy
    exact h
  have hl : p.core.getLast? = x.getLast? := by
    obtain ⟨u, e⟩ := List.getLast?_eq_some_iff.1 hx
    have hne : x ≠ [] := by
      obtain ⟨a, t, rfl, -⟩ := rafsi_first hxr
      simp
    rw [← hc, e]
    simp [List.getLast?_append, List.getLast?_eq_some_getLast hne]
  rw [hl] at ht he
  constructor
  · intro h4
    rcases ha.cases with ⟨-, h, -⟩ | ⟨-, h, -⟩ | ⟨-, -, h⟩
    · exact .inl h
    · obtain ⟨c, hc, hv⟩ := ht h
      exfalso
      cases hxr with
      | cvv => simp at h4
      | cvhv => simp at h4
      | cvc => simp at h4
      | ccv => simp at h4
      | cvcc h1 h2 h3 => cases hc; exact vowel_not_consonant hv h3.2.1
      | ccvc h1 h2 h3 => cases hc; exact vowel_not_consonant hv h3
      | gismu h => have : x.length = 5 := by cases h <;> rfl
                   omega
    · exact .inr h
  · intro h5 g t e
    rcases ha.cases with ⟨-, h, -⟩ | ⟨-, -, g', t', h⟩ | ⟨h1, h2, -⟩
    · rw [h] at e; cases e
    · rw [h] at e; cases e
    · obtain ⟨c, hc, hv⟩ := he h2 h1
      have := rafsi_five hxr h5
      cases this with
      | cvccv h1 h2 h3 h4 => cases hc; exact vowel_not_consonant h4 hv
      | ccvcv h1 h2 h3 h4 => cases hc; exact vowel_not_consonant h4 hv

theorem zihevla_shown {s : Settings} {cmevla last nl : Bool} {cl : Prop} {p : YPart} {rest r : List Str}
    (h : ZihevlaPart s (last && !cmevla) nl cl p) (hy : 'y' ∉ p.core) (hq : p.core.getLast? ≠ some '\'')
    (hc : cmevla = true → last = true → ∃ c, p.core.getLast? = some c ∧ Consonant c) (hlen : p.core.length + 1 < 10 ^ 93)
    (ha : Then p last rest) (he : entries s (p.core :: rest) = .ok r) :
    ∃ e r', r = [e] ++ r' ∧
      ((∃ n, Syllables .nothing (p.whole (last && !cmevla)) n ∧ 2 ≤ n) →
        e = if p.trail = true ∨ (last && !cmevla) = true then p.core else p.core ++ s%"-") ∧
      ((¬ ∃ n, Syllables .nothing (p.whole (last && !cmevla)) n ∧ 2 ≤ n) →
        e = if last = true ∧ isBrivla .linked { yHyphens := s.yHyphens, allowMz := s.allowMz } (p.core ++ s%"a") = .ok true
          then p.core ++ s%"-" else s%"-" ++ p.core ++ s%"-") ∧ entries s rest = .ok r' := by
  by_cases hcut : p.trail = false ∧ (last && !cmevla) = false
  · -- without its last vowel
    have h2 := h.syllables (.inl (.inl hcut))
    have hW := zpart_whole h hlen h2
    have hw : p.whole (last && !cmevla) = p.core ++ s%"a" := if_pos hcut
    rw [hw] at hW
    have hlong := form_long hW.form
    simp only [List.length_append, List.length_singleton] at hlong
    have hne : p.core ≠ [] := by intro h; rw [h] at hlong; simp at hlong
    have hcl : Clean p.core := clean_cut (sounds_clean hW.form.sounds (by simp)) hne hq
    have hs : searchSelrafsi p.core = none := by
      refine search_other hcl (zcut_shape ⟨hW, ?_, hq⟩)
      exact fun hc => h.unreadable (.inr (.inr hc))
    have hb := zwhole_brivla hW (by simp; omega)
    obtain ⟨e, r', heo, hr', rfl⟩ := entries_piece (core_notHyphen hne hy (.inl (by omega))) he
    refine ⟨e, r', rfl, fun _ => ?_, fun hn => absurd h2 hn, hr'⟩
    rw [if_neg (by rw [hcut.1, hcut.2]; simp)]
    rcases ha.cases with ⟨h1, rfl, -⟩ | ⟨-, h1, -⟩ | ⟨-, -, g, q, t, rfl⟩
    · rcases entryOf_none hs (.inl rfl) heo with ⟨hb', -⟩ | ⟨-, h⟩
      · have hcm : cmevla = true := by
          have := hcut.2
          rw [h1] at this
          simpa using this
        obtain ⟨c, hc1, hc2⟩ := hc hcm h1
        obtain ⟨l, hl, hv⟩ := C16_is_brivla.2.2.2 hb'
        rw [reading_letters hcl.letters, hc1] at hl
        cases hl
        exact absurd hc2 (vowel_not_consonant hv)
      · rw [if_pos ⟨rfl, hb⟩] at h
        exact h
    · rw [hcut.1] at h1; cases h1
    · exact entryOf_y hs hb heo
  · have hw : p.whole (last && !cmevla) = p.core := if_neg hcut
    have htw : p.trail = true ∨ (last && !cmevla) = true := by
      cases htr : p.trail
      · cases hl : (last && !cmevla)
        · exact absurd ⟨htr, hl⟩ hcut
        · exact .inr rfl
      · exact .inl rfl
    have hun := h.unreadable (htw.imp id .inl)
    have hS := h.sounds
    have hvow := h.vowel
    rw [hw] at hS hvow
    have hne : p.core ≠ [] := by
      obtain ⟨c, hc, -⟩ := hvow
      intro h
      rw [h] at hc
      cases hc
    have hs := search_unreadable hS.letters hun
    obtain ⟨e, r', heo, hr', rfl⟩ := entries_piece (core_notHyphen hne hy (.inr hvow)) he
    have hrest : rest = [] ∨ ∃ g t, rest = ('\'' :: g) :: t := by
      rcases ha.cases with ⟨-, h, -⟩ | ⟨-, -, h⟩ | ⟨h1, h2, -⟩
      · exact .inl h
      · exact .inr h
      · rw [h1, h2] at htw; simp at htw
    have hlast : rest = [] ↔ last = true := by
      rcases ha.cases with ⟨h1, h2, -⟩ | ⟨h1, -, g, t, h2⟩ | ⟨h1, -, g, q, t, h2⟩ <;> simp [h1, h2]
    refine ⟨e, r', rfl, fun h2 => ?_, fun hn => ?_, hr'⟩
    · have hW := zpart_whole h hlen h2
      rw [hw] at hW
      rw [if_pos htw]
      rcases entryOf_none hs hrest heo with ⟨-, h⟩ | ⟨h, -⟩
      · exact h
      · rw [zwhole_brivla hW (by omega)] at h; cases h
    · rcases entryOf_none hs hrest heo with ⟨hb, -⟩ | ⟨-, h⟩
      · exfalso
        rw [C48_brivla (by omega), reading_letters hS.letters] at hb
        rcases hb with hg | ⟨ps, h1, h2⟩ | ⟨hF, -⟩ | ⟨parts, h1, h2⟩
        · exact unreadable_gismu hun hg
        · exact hun ps h2.reading h1
        · rw [hw] at hn
          exact hn hF.syllables
        · match parts, h2.two, h1 with
          | a :: b :: v, _, h1 => exact hy (by rw [← h1]; exact joinParts_y)
      · simp only [hlast] at h
        exact h

theorem exp_shown {s : Settings} {cmevla last nl : Bool} {cl : Prop} {p : YPart} {rest r : List Str}
    (h : ExpPart s (last && !cmevla) nl cl p) (hy : 'y' ∉ p.core) (ha : Then p last rest) (he : entries s (p.core :: rest) = .ok r) :
    ∃ r', r = [s%"-" ++ p.core ++ s%"-"] ++ r' ∧ entries s rest = .ok r' := by
  have hne : p.core ≠ [] := by
    obtain ⟨c, hc, -⟩ := h.vowel
    intro h
    rw [h] at hc
    cases hc
  have hs := search_unreadable h.sounds.letters h.unreadable
  obtain ⟨e, r', heo, hr', rfl⟩ := entries_piece (core_notHyphen hne hy (.inr h.vowel)) he
  refine ⟨r', ?_, hr'⟩
  have hno : ∀ {x : Str}, x = p.core ∨ x = p.core ++ s%"a" → ∀ a b, Adjacent x a b → Consonant a → Consonant b → False := by
    rintro x hx a b ⟨u, v, e⟩ ha hb
    have hbt : b ∈ x.tail := by
      rw [e]
      cases u <;> simp
    rcases hx with rfl | rfl
    · exact h.consonants b hbt hb
    · rw [List.tail_append_of_ne_nil hne] at hbt
      rcases List.mem_append.1 hbt with hbt | hbt
      · exact h.consonants b hbt hb
      · simp at hbt
        subst hbt
        exact absurd hb (by decide)
  have hrest : rest = [] ∨ ∃ g t, rest = ('\'' :: g) :: t := by
    rcases ha.cases with ⟨-, h, -⟩ | ⟨-, -, h⟩ | ⟨h1, h2, -⟩
    · exact .inl h
    · exact .inr h
    · exact absurd (.inl ⟨h2, by rw [h1]; rfl⟩) h.free
  rcases entryOf_none hs hrest heo with ⟨hb, -⟩ | ⟨-, h'⟩
  · obtain ⟨a, b, h1, h2, h3⟩ := brivla_pair h.sounds.letters hb
    exact (hno (.inl rfl) a b h1 h2 h3).elim
  · rw [if_neg] at h'
    · rw [h']; rfl
    · rintro ⟨-, hb⟩
      obtain ⟨a, b, h1, h2, h3⟩ := brivla_pair (letters_a h.sounds.letters) hb
      exact (hno (.inr rfl) a b h1 h2 h3).elim

theorem part_shown {s : Settings} {cmevla first last nl : Bool} {cl : Prop} {p : YPart} {rest r : List Str}
    (h : PartOk s cmevla first (last && !cmevla) nl cl p)
    (hc : cmevla = true → last = true → ∃ c, p.core.getLast? = some c ∧ Consonant c) (hlen : p.core.length + 1 < 10 ^ 93)
    (ha : Then p last rest) (he : entries s (p.pieces ++ rest) = .ok r) :
    ∃ e r', r = e ++ r' ∧ PartShown s p last (last && !cmevla) e ∧ entries s rest = .ok r' := by
  have hk := h.kind
  unfold PartShown
  have hv := fun ht => (h.trail ht).2
  split at hk
  · rename_i k
    rw [k]
    refine reading_shown (by rw [hk.2]; exact cvc_reading hk.1) (by rw [hk.2]; simp) hv ?_ ha he
    intro _ _
    obtain ⟨a, b, c, e, -, -, h⟩ := tarmi_cvc.1 (pattern_cvc.1 hk.1)
    exact ⟨c, by rw [e]; rfl, (isConsonant_iff _).1 h⟩
  · rename_i k
    rw [k]
    refine reading_shown hk.reading hk.core hv ?_ ha he
    intro h1 h2
    exact hk.ends h1 (by rw [h2]; rfl)
  · rename_i k
    rw [k]
    rw [hk.pieces] at he
    obtain ⟨e, r', e1, h1, h2, h3⟩ := zihevla_shown hk h.noY h.ends hc hlen ha he
    exact ⟨[e], r', e1, ⟨fun h => by rw [h1 h], fun h => by rw [h2 h]⟩, h3⟩
  · rename_i k
    rw [k]
    rw [hk.pieces] at he
    obtain ⟨r', h1, h2⟩ := exp_shown hk h.noY ha he
    exact ⟨_, r', h1, rfl, h2⟩

theorem part_pieces {s : Settings} {cmevla first last nl : Bool} {cl : Prop} {p : YPart} (h : PartOk s cmevla first last nl cl p) : p.pieces ≠ [] := by
  have hk := h.kind
  split at hk
  · rw [hk.2]; simp
  · obtain ⟨x, hx, -⟩ := hk.reading.first
    intro e
    rw [e] at hx
    cases hx
  · rw [hk.pieces]; simp
  · rw [hk.pieces]; simp

theorem parts_shown {s : Settings} {cmevla : Bool} : ∀ {v : List YPart} {r : List Str},
    (∀ a p b, v = a ++ p :: b → (∃ first nl cl, PartOk s cmevla first (b.isEmpty && !cmevla) nl cl p) ∧ p.core.length + 1 < 10 ^ 93 ∧
      (b = [] → p.trail = false ∧ (cmevla = true → ∃ c, p.core.getLast? = some c ∧ Consonant c))) →
    entries s (joinPieces v) = .ok r → PartsShown s cmevla v r := by
  intro v
  induction v with
  | nil => intro r _ h; cases h; exact .nil
  | cons p v ih =>
    intro r hp h
    obtain ⟨⟨first, nl, cl, hok⟩, hlen, hlast⟩ := hp [] p v rfl
    have ih' := fun r => ih (r := r) (fun a q b e => hp (p :: a) q b (by rw [e]; rfl))
    cases v with
    | nil =>
      have hl := hlast rfl
      obtain ⟨e, r', rfl, h1, h2⟩ := part_shown (last := true) (rest := []) hok (fun hc _ => hl.2 hc) hlen ⟨rfl, hl.1⟩ (by simpa [joinPieces] using h)
      cases h2
      exact .cons h1 .nil
    | cons q v =>
      have hne : joinPieces (q :: v) ≠ [] := by
        obtain ⟨⟨_, _, _, hq⟩, -, -⟩ := hp [p] q v rfl
        have := part_pieces hq
        cases v <;> simp [joinPieces, this]
      obtain ⟨z, t, hz⟩ := List.exists_cons_of_ne_nil hne
      have hh : Hyphen ((if p.trail then s%"'" else []) ++ s%"y" ++ (if q.lead then s%"'" else [])) := by
        cases p.trail <;> cases q.lead <;> decide
      obtain ⟨e, r', rfl, h1, h2⟩ := part_shown (last := false)
        (rest := ((if p.trail then s%"'" else []) ++ s%"y" ++ (if q.lead then s%"'" else [])) :: joinPieces (q :: v)) hok
        (fun _ h => by cases h) hlen ⟨_, z, t, by rw [hz]⟩ (by simpa [joinPieces] using h)
      rw [entries_hyphen hh] at h2
      exact .cons h1 (ih' _ h2)

theorem core_length {u v : List YPart} {p : YPart} {w : Str} (h : joinParts (u ++ p :: v) = w) : p.core.length ≤ w.length := by
  obtain ⟨a, b, e⟩ := joinParts_core (u := u) (p := p) (v := v)
  rw [← h, e]
  simp
  omega

end Jvotci
