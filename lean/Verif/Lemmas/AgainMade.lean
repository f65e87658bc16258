import Verif.Lemmas.AgainWord

/-!
# Helper lemmas: the slots of an extended lujvo make a word
-/

namespace Jvotci

open Spec

/-- What the tosmabru test rejects, in the first part of a word. -/
theorem again_tos {mz : Bool} {z0 : Slot} {zs zs' : List Slot} (hB : BareSlots mz (z0 :: zs)) (hw : ∀ z ∈ zs, ∃ h, z.text = z.rafsi ++ h)
    (hlong : ∀ z ∈ zs, z.kind = .long → z.text ≠ z.rafsi)
    (hends : ∀ z, (z0 :: zs).getLast? = some z → z.text.getLast? = some 'y') (ht : Tosmabru (z0 :: zs ++ zs')) :
    ∃ x0 xs y, (z0 :: zs).map Slot.rafsi = x0 :: xs ++ [y] ∧ pattern x0 = s%"CVC" ∧ (∀ x ∈ xs, pattern x = s%"CVC") ∧
      (∀ u p q v, x0 :: xs ++ [y] = u ++ p :: q :: v → MeetInitial p q) ∧
      ((pattern y = s%"CVCCV" ∧ ∃ a b c d e, y = [a, b, c, d, e] ∧ InitialPair c d) ∨ pattern y = s%"CVC") := by
  obtain ⟨u, y, rest, hu, e, hcvc, hmeet, hy⟩ := ht
  have hlast : ∀ z, (z0 :: zs).getLast? = some z → z ∉ u := by
    intro z hz hm
    obtain ⟨h1, h2⟩ := hcvc z hm
    have := hends z hz
    obtain ⟨a, b, c, e1, -, -, h3⟩ := tarmi_cvc.1 (pattern_cvc.1 h1)
    rw [h2, e1] at this
    cases this
    exact absurd h3 (by decide)
  obtain ⟨zl, hzl⟩ : ∃ z, (z0 :: zs).getLast? = some z := ⟨_, List.getLast?_eq_some_getLast (by simp)⟩
  have hnot := hlast zl hzl
  have hmem := List.mem_of_getLast? hzl
  obtain ⟨k, hA⟩ : ∃ k, z0 :: zs = u ++ y :: k := by
    rcases List.append_eq_append_iff.1 e with ⟨k, e1, e2⟩ | ⟨k, e1, e2⟩
    · exact absurd (by rw [e1]; exact List.mem_append_left _ hmem) hnot
    · cases k with
      | nil =>
        rw [List.append_nil] at e1
        exact absurd (e1 ▸ hmem) hnot
      | cons a k =>
        injection e2 with e2 _
        subst e2
        exact ⟨k, e1⟩
  obtain ⟨a, u, rfl⟩ := List.exists_cons_of_ne_nil hu
  have hyz : y ∈ zs := by
    injection hA with _ h
    rw [h]; simp
  have hk : k = [] := by
    apply Classical.byContradiction
    intro hk
    have htx := hB.2 _ y k hA hk
    rcases hy with ⟨h1, -⟩ | ⟨-, h2⟩
    · refine hlong y hyz ?_ htx
      obtain ⟨hr, hkk⟩ := hB.1 y (List.mem_cons_of_mem _ hyz)
      rw [hkk]
      apply Classical.byContradiction
      intro hn
      have := (kind_length hr).2 hn
      have hl := congrArg List.length h1
      simp [pattern] at hl
      omega
    · rw [htx] at h2
      simp at h2
  subst hk
  have hcvc' : ∀ x ∈ a :: u, pattern x.rafsi = s%"CVC" := fun x hx => (hcvc x hx).1
  refine ⟨a.rafsi, u.map Slot.rafsi, y.rafsi, by rw [hA]; simp, hcvc' a (by simp), ?_, ?_, ?_⟩
  · intro x hx
    obtain ⟨z, hz, rfl⟩ := List.mem_map.1 hx
    exact hcvc' z (List.mem_cons_of_mem _ hz)
  · intro w p q v ew
    have ew' : (a :: u ++ [y]).map Slot.rafsi = w ++ p :: q :: v := by rw [← ew]; simp
    obtain ⟨l1, l2, h1, h2, h3⟩ := List.map_eq_append_iff.1 ew'
    obtain ⟨p', l3, rfl, rfl, h4⟩ := List.map_eq_cons_iff.1 h3
    obtain ⟨q', l4, rfl, rfl, h5⟩ := List.map_eq_cons_iff.1 h4
    obtain ⟨c, d, hc, hd, hi⟩ := hmeet p' q' ⟨l1, l4, h1⟩
    have hp' : p' ∈ a :: u := by
      have h6 : (a :: u ++ [y]).dropLast = (l1 ++ p' :: q' :: l4).dropLast := by rw [h1]
      rw [List.dropLast_concat] at h6
      rw [h6, List.dropLast_append_cons]
      simp
    have hq' : q' ∈ zs := by
      have : z0 :: zs = l1 ++ p' :: q' :: l4 := by rw [hA, ← h1]
      cases l1 with
      | nil => injection this with _ h; rw [h]; simp
      | cons => injection this with _ h; rw [h]; simp
    refine ⟨c, d, ?_, ?_, hi⟩
    · rw [← (hcvc p' hp').2]; exact hc
    · obtain ⟨h, ht⟩ := hw q' hq'
      rw [ht] at hd
      obtain ⟨b, t, he, -⟩ := rafsi_first (hB.1 q' (List.mem_cons_of_mem _ hq')).1
      rw [he] at hd ⊢
      exact hd
  · rcases hy with h | h
    · exact .inl h
    · exact .inr h.1

/-- The pieces are rafsi without r or n, if there is no CVV or CV'V. -/
theorem filter_no_vowel {y : YHyphens} {mz : Bool} {xs : List Str} (hf : ∃ p, xs.head? = some p ∧ Rafsi mz p)
    (hR : ∀ x ∈ xs, Rafsi mz x ∨ x ∈ [s%"r", s%"n"]) (hl : ∀ u p q v, xs = u ++ p :: q :: v → Link y mz p q)
    (hv : ∀ x ∈ xs.filter (fun x => ¬ Hyphen x), ¬ VowelRafsi x) : xs.filter (fun x => ¬ Hyphen x) = xs := by
  rw [List.filter_eq_self]
  intro x hx
  simp only [decide_eq_true_eq]
  intro hh
  obtain ⟨u, v, rfl⟩ := List.append_of_mem hx
  rcases hR x hx with hr | hr
  · exact rafsi_not_hyphen hr hh
  · by_cases hu : u = []
    · subst hu
      obtain ⟨p, hp, hpr⟩ := hf
      cases hp
      exact rafsi_not_hyphen hpr hh
    · obtain ⟨u, p, rfl⟩ : ∃ u' p, u = u' ++ [p] := ⟨_, _, (List.dropLast_concat_getLast hu).symm⟩
      have hk := hl u p x v (by simp)
      have key : Rafsi mz p ∧ VowelRafsi p := by
        generalize e2 : x = q at hk
        cases hk with
        | rOrN _ hr h => exact ⟨hr, h⟩
        | rafsi _ hq => subst e2; exact absurd hh (rafsi_not_hyphen hq)
        | y => subst e2; simp at hr
        | apostropheY => subst e2; simp at hr
        | afterY _ hq => subst e2; exact absurd hh (rafsi_not_hyphen hq)
        | afterR hq => subst e2; exact absurd hh (rafsi_not_hyphen hq)
        | afterN hq => subst e2; exact absurd hh (rafsi_not_hyphen hq)
      exact hv p (List.mem_filter.2 ⟨by simp, by simpa using rafsi_not_hyphen key.1⟩) key.2

/-- There are enough consonants, unless they are r and n hyphens. -/
theorem thin_enough {s : Settings} {parts : List YPart} {zs : List Slot} (g : Str) (hE : ExtendedLujvo s parts)
    (hexp : s.expRafsi = false) (hlen : ∀ p ∈ parts, p.core.length + 2 < 10 ^ 90)
    (hraf : zs.map Slot.rafsi = (parts.map YPart.pieces).flatten.filter (fun x => ¬ Hyphen x))
    (hun : ∀ z ∈ zs, UnitOf s z.rafsi z.kind) (h2 : 2 ≤ zs.length) :
    Enough s zs g ∨ ((∀ z ∈ zs, VowelRafsi z.rafsi) ∧ ∃ r ∈ parts, r.kind = .rafsi ∧ ∃ x ∈ r.pieces, Hyphen x) := by
  by_cases hx : ∃ y ∈ zs, ¬ VowelRafsi y.rafsi
  · obtain ⟨y, hy, hv⟩ := hx
    have := counts_two hy ((unit_count (hun y hy)).1 hv)
    refine .inl (.inr (.inr ?_))
    split <;> omega
  · have hallz : ∀ z ∈ zs, VowelRafsi z.rafsi := fun z hz => Classical.byContradiction fun hn => hx ⟨z, hz, hn⟩
    have hall : ∀ x ∈ (parts.map YPart.pieces).flatten, ¬ Hyphen x → VowelRafsi x := by
      intro x hx' hh
      have : x ∈ zs.map Slot.rafsi := by rw [hraf]; exact List.mem_filter.2 ⟨hx', by simpa using hh⟩
      obtain ⟨y, hy, rfl⟩ := List.mem_map.1 this
      exact hallz y hy
    have hkinds : ∀ r ∈ parts, r.kind = .rafsi := by
      intro r hr
      obtain ⟨u, t, e⟩ := List.append_of_mem hr
      have hk := (hE.parts u r t e).kind
      have hin : ∀ x ∈ r.pieces, ¬ Hyphen x → VowelRafsi x := fun x hx => hall x (List.mem_flatten.2 ⟨_, List.mem_map.2 ⟨r, hr, rfl⟩, hx⟩)
      cases hkk : r.kind with
      | rafsi => rfl
      | cvc =>
        rw [hkk] at hk
        obtain ⟨a, b, c, e1, h1, h2, h3⟩ := tarmi_cvc.1 (pattern_cvc.1 hk.1)
        obtain ⟨l, hl, hv⟩ := vowelRafsi_ne (hin r.core (by rw [hk.2]; simp) (by
          rw [e1]
          exact rafsi_not_hyphen (mz := false) (.cvc ((isConsonant_iff _).1 h1) ((isVowel_iff _).1 h2) ((isConsonant_iff _).1 h3))))
        rw [e1] at hl
        cases hl
        exact absurd ((isConsonant_iff _).1 h3) (vowel_not_consonant hv)
      | zihevla =>
        rw [hkk] at hk
        exfalso
        have hb : (10 : Nat) ^ 93 = 1000 * 10 ^ 90 := by decide
        have hl := hlen r hr
        have hW := zpart_whole hk (by omega) (hk.syllables (.inr hexp))
        have hv := hin r.core (by rw [hk.pieces]; simp)
        unfold YPart.whole at hW
        split at hW
        · have hZ : ZCut s r.core := ⟨hW, fun hc => hk.unreadable (.inr (.inr hc)), (hE.parts u r t e).ends⟩
          exact zcut_not_vv hZ (hv (unit_not_hyphen (.cut hZ)))
        · exact zwhole_not_vv hW (hv (unit_not_hyphen (.whole hW)))
      | exp =>
        rw [hkk] at hk
        rw [hk.option] at hexp
        cases hexp
    rcases hE.consonants with hc | ⟨hc, -, -⟩
    · rcases hc with ⟨r, hr, hc | ⟨hk, x, hx', hv⟩⟩ | ⟨u, r, q', v', e, hc, -⟩
      · have := hkinds r hr
        rw [hc] at this; cases this
      · refine .inr ⟨hallz, r, hr, hk, x, hx', ?_⟩
        exact Classical.byContradiction fun hh => hv (hall x (List.mem_flatten.2 ⟨_, List.mem_map.2 ⟨r, hr, rfl⟩, hx'⟩) hh)
      · have := hkinds r (by rw [e]; simp)
        rw [hc] at this; cases this
    · have h3 := counts_length (s := s) (zs := zs) fun y hy => (unit_count (hun y hy)).2 hc
      refine .inl (.inr (.inr ?_))
      split <;> omega

/-- A first slot and slots for the rest make a word. -/
theorem assemble {s : Settings} {z0 z1 : Slot} {zs : List Slot} {hy v0 txt : Str} {es ys : List Str} (hU : Usable .linked s v0 z0.rafsi z0.kind)
    (hsp : Spelled v0 ∧ v0.length < 10 ^ 90) (hu : UnitOf s z0.rafsi z0.kind) (hw : z0.Written true false) (hz : Slotted s true es (z1 :: zs) ys txt)
    (hF : FirstHyphen s false (zs.length + 2) z0 z1 hy) (hJ : Joint s.allowMz z0 z1) (htos : ¬ Tosmabru (z0 :: z1 :: zs))
    (hen : Enough s (z0 :: z1 :: zs) hy) (hend : ∃ l, txt.getLast? = some l ∧ Vowel l) :
    Represents .linked s (v0 :: es).length 0 (v0 :: es) (z0 :: z1 :: zs) ∧ Legal s false (z0 :: z1 :: zs) hy ∧
      (∀ v ∈ v0 :: es, Spelled v ∧ v.length < 10 ^ 90) ∧ (∀ z ∈ z0 :: z1 :: zs, UnitOf s z.rafsi z.kind) := by
  have hle := all2_length hz.rep
  refine ⟨?_, ⟨⟨z0, z1, zs, rfl, hF⟩, ?_, fun _ => htos, ?_, hen, ?_⟩, ?_, ?_⟩
  · refine .cons hU ?_ (represents_written hz.rep (by simpa using hz.written) (by omega) (by rw [← hle, List.length_cons]; omega))
    have : (0 + 1 == (v0 :: es).length) = false := by
      rw [List.length_cons, hle]
      simp
    rw [this]
    exact hw
  · intro y w hb
    rcases beside_cons.1 hb with ⟨rfl, rfl⟩ | hb
    · exact hJ
    · exact hz.joints y w hb
  · rintro - ⟨y, rest, e, -, -, h⟩
    injection e with e1 e2
    subst e2
    obtain ⟨c, hc, hcc⟩ := unit_consonant (hz.unit z1 (by simp))
    obtain ⟨g, ht, -⟩ := hz.written [] z1 zs rfl
    exact (h z1 (by simp)).2 c (by rw [ht]; simp [hc]) hcc
  · obtain ⟨l, hl, hv⟩ := hend
    refine ⟨l, ?_, by simpa using hv⟩
    rw [wordOf, hz.text, List.getLast?_append, hl]
    rfl
  · intro x hx
    rcases List.mem_cons.1 hx with rfl | hx
    · exact hsp
    · exact all2_spelled hz.rep x hx
  · intro y hy
    rcases List.mem_cons.1 hy with rfl | hy
    · exact hu
    · exact hz.unit y hy

/-- What letters cost. -/
def letterWeight (w : Str) : Int := 1000 * (w.length : Int) + 100 * ((w.count 'y' : Nat) : Int) - (vowelCount w : Int)

theorem thin_weight {d : Nat} {a b : Str} (h : Thin d a b) : letterWeight a ≤ letterWeight b := by
  have h1 := h.len
  have h2 := h.y
  have h3 := h.vowels
  unfold letterWeight
  rw [h2, h3, h1]
  omega

theorem letterWeight_append (a b : Str) : letterWeight (a ++ b) = letterWeight a + letterWeight b := by
  unfold letterWeight vowelCount
  rw [List.filter_append, List.length_append, List.length_append, List.count_append]
  omega

theorem glue_notForce {y : YHyphens} {mz : Bool} {xs : List Str} (hf : ∃ p, xs.head? = some p ∧ Rafsi mz p)
    (hl : ∀ u p q v, xs = u ++ p :: q :: v → Link y mz p q) {x : Str} (hx : x ∈ xs) (hr : x ∈ [s%"r", s%"n"]) : y ≠ .forceY := by
  have hh := glue_hyphen hr
  obtain ⟨u, v, rfl⟩ := List.append_of_mem hx
  by_cases hu : u = []
  · subst hu
    obtain ⟨p, hp, hpr⟩ := hf
    cases hp
    exact absurd hh (rafsi_not_hyphen hpr)
  · obtain ⟨u, p, rfl⟩ : ∃ u' p, u = u' ++ [p] := ⟨_, _, (List.dropLast_concat_getLast hu).symm⟩
    have hk := hl u p x v (by simp)
    generalize e2 : x = q at hk
    cases hk with
    | rOrN h => exact h
    | rafsi _ hq => subst e2; exact absurd hh (rafsi_not_hyphen hq)
    | y => subst e2; simp at hr
    | apostropheY => subst e2; simp at hr
    | afterY _ hq => subst e2; exact absurd hh (rafsi_not_hyphen hq)
    | afterR hq => subst e2; exact absurd hh (rafsi_not_hyphen hq)
    | afterN hq => subst e2; exact absurd hh (rafsi_not_hyphen hq)

theorem glue_pos {x : Str} {xs : List Str} (hx : x ∈ xs) (hr : x ∈ [s%"r", s%"n"]) : glueCount xs ≠ 0 := by
  unfold glueCount
  rw [Ne, List.countP_eq_zero]
  intro h
  exact h x hx (by simpa using hr)

theorem vowel_pattern {mz : Bool} {x : Str} (hr : Rafsi mz x) (h : VowelRafsi x) : pattern x ∈ [s%"CVV", s%"CV'V"] := by
  simp only [List.mem_cons, List.not_mem_nil, or_false]
  rcases vowelRafsi_tarmi hr h with h | h
  · exact .inl (pattern_cvv.2 h)
  · exact .inr (pattern_cvhv.2 h)

/-- r or n behind CVV or CV'V. -/
theorem glue_first {s : Settings} {n : Nat} {x : Str} {k : Kind} {z1 : Slot} (hr : Rafsi s.allowMz x) (hv : VowelRafsi x) (hf : s.yHyphens ≠ .forceY)
    (hn : ¬ (n = 2 ∧ pattern z1.rafsi = s%"CCV")) : FirstHyphen s false n ⟨x, k, x⟩ z1 (if z1.text.head? = some 'r' then s%"n" else s%"r") := by
  obtain ⟨l, hl, hlv⟩ := vowelRafsi_ne hv
  refine .inr ⟨?_, ?_, ?_⟩
  · show x.getLast? ≠ _
    rw [hl]
    intro h
    cases h
    exact absurd hlv (by decide)
  · rintro ⟨-, h⟩
    simp at h
  · exact ((if_pos ⟨vowel_pattern hr hv, rfl, hn⟩).trans (if_neg hf)).symm

/-- The hyphen behind CVV or CV'V. -/
theorem many_first {s : Settings} {n : Nat} {x : Str} {k : Kind} {z1 : Slot} (hr : Rafsi s.allowMz x) (hv : VowelRafsi x)
    (hn : ¬ (n = 2 ∧ pattern z1.rafsi = s%"CCV")) :
    FirstHyphen s false n ⟨x, k, x⟩ z1 (if s.yHyphens = .forceY then s%"'y" else if z1.text.head? = some 'r' then s%"n" else s%"r") := by
  obtain ⟨l, hl, hlv⟩ := vowelRafsi_ne hv
  refine .inr ⟨?_, ?_, ?_⟩
  · show x.getLast? ≠ _
    rw [hl]
    intro h
    cases h
    exact absurd hlv (by decide)
  · rintro ⟨-, h⟩
    simp at h
  · exact (if_pos ⟨vowel_pattern hr hv, rfl, hn⟩).symm

theorem bare_first {s : Settings} {n : Nat} {x : Str} {k : Kind} {z1 : Slot} (hr : Rafsi s.allowMz x) (hv : ¬ VowelRafsi x) :
    FirstHyphen s false n ⟨x, k, x⟩ z1 [] := by
  obtain ⟨l, hl, hlv⟩ := rafsi_lastLetter hr
  refine .inr ⟨?_, ?_, ?_⟩
  · show x.getLast? ≠ _
    rw [hl]
    intro h
    cases h
    exact absurd hlv (by decide)
  · rintro ⟨-, h⟩
    simp at h
  · rw [if_neg]
    rintro ⟨h, -⟩
    exact hv (pattern_vowelRafsi h)

/-- A lujvo for the components of an extended lujvo. If that begins with CVV or CV'V and another rafsi at once, a hyphen comes between them. -/
theorem again_word {s : Settings} {p q : YPart} {v : List YPart} {vs : List Str} (hE : ExtendedLujvo s (p :: q :: v))
    (hS : PartsShown s false (p :: q :: v) vs) (hexp : s.expRafsi = false) (hlen : ∀ r ∈ p :: q :: v, r.core.length + 2 < 10 ^ 90)
    (hg : ∀ r ∈ p :: q :: v, r.lead = true → ¬ Onglide r.core) :
    ∃ zs hy a h b, Represents .linked s vs.length 0 vs zs ∧ Legal s false zs hy ∧
      zs.map Slot.rafsi = ((p :: q :: v).map YPart.pieces).flatten.filter (fun x => ¬ Hyphen x) ∧
      (∀ v ∈ vs, Spelled v ∧ v.length < 10 ^ 90) ∧ (∀ z ∈ zs, UnitOf s z.rafsi z.kind) ∧
      ((∀ x g rest, p.pieces = x :: g :: rest → VowelRafsi x → Hyphen g) → h = []) ∧
      (h = [] ∨ h = if s.yHyphens = .forceY then s%"'y" else if b.head? = some 'r' then s%"n" else s%"r") ∧
      letterWeight (wordOf zs hy) ≤ letterWeight (joinParts (p :: q :: v)) + letterWeight h ∧ joinParts (p :: q :: v) = a ++ b ∧
      (glueCount (p.pieces.drop 2 ++ ((q :: v).map YPart.pieces).flatten) = 0 → wordOf zs hy = a ++ h ++ b) := by
  have hP : PartOk s false true false q.lead (ClusterBefore s [] p) p := by simpa using hE.parts [] p (q :: v) rfl
  have hlead : p.lead = false := by
    cases hl : p.lead with
    | false => rfl
    | true => have := (hP.lead hl).1; cases this
  cases hS with
  | @cons _ _ e es h1 h2 =>
  obtain ⟨zs, txt, hz, ht⟩ := thin_parts hexp (v := q :: v) (by simp) (fun u r t e => by
    have := hE.parts (p :: u) r t (by rw [e]; rfl)
    have hm : r ∈ p :: q :: v := by rw [e]; simp
    exact ⟨⟨_, _, by simpa using this⟩, hlen r hm, hg r hm⟩) h2
  have hend : ∃ l, txt.getLast? = some l ∧ Vowel l := by
    obtain ⟨l, hl, hv⟩ := hE.vowel
    refine ⟨l, ?_, hv⟩
    rw [ht.last]
    rw [joinParts, List.getLast?_append] at hl
    have hne : joinParts (q :: v) ≠ [] := by
      intro h0
      have h3 := hz.text
      have h4 : txt = [] := List.eq_nil_of_length_eq_zero (by have := ht.len; rw [h0] at this; simp at this; omega)
      obtain ⟨z1, zs, rfl⟩ := List.exists_cons_of_ne_nil hz.ne
      obtain ⟨h, hzt, -⟩ := hz.written [] z1 zs rfl
      rw [h4, List.map_cons, List.flatten_cons, hzt] at h3
      have := unit_ne (hz.unit z1 (by simp))
      simp [this] at h3
    cases hq : (joinParts (q :: v)).getLast? with
    | none => rw [List.getLast?_eq_none_iff] at hq; exact absurd hq hne
    | some l' => rw [hq] at hl; simpa using hl
  have hne := part_pieces hP
  by_cases hone : p.pieces = [p.core]
  · obtain ⟨v0, z, hy, rfl, hU, hsp, hvl, hu, hzc, hw, htx, hl, hnr, hF⟩ := slotted_first hP (by
        intro hkk h2 h3 h4
        have hkind := hP.kind
        rw [hkk] at hkind
        cases hnl : q.lead with
        | true => rfl
        | false =>
        have := hkind.fallsOff rfl h2 h3 h4 hnl
        exfalso
        revert this
        rintro ((⟨p, hp, -⟩ | ⟨u, p, q, v, e, -⟩) | ⟨⟨w, q, e, -⟩, -⟩)
        · cases hp
        · have := congrArg List.length e
          simp at this
        · have := congrArg List.length e
          simp at this)
      hexp (hlen p (by simp)) hone (by
        intro a b c h1 h2 e
        exact hE.begin a b c _ h1 h2 (by rw [joinParts, e]; rfl)) h1
    obtain ⟨z1, zs, rfl⟩ := List.exists_cons_of_ne_nil hz.ne
    have hhead : q.lead = true → z1.text.head? = some '\'' := by
      intro hql
      obtain ⟨h, ht', -⟩ := hz.written [] z1 zs rfl
      have hne : z1.text ≠ [] := by
        rw [ht']
        have := unit_ne (hz.unit z1 (by simp))
        simp [this]
      have htt := hz.text
      rw [List.map_cons, List.flatten_cons] at htt
      have h3 : (z1.text ++ (zs.map Slot.text).flatten).head? = z1.text.head? := by
        cases ht : z1.text with
        | nil => exact absurd ht hne
        | cons => rfl
      rw [← h3, htt, ht.head]
      cases v with
      | nil => simp [joinParts, YPart.text, hql]
      | cons => simp [joinParts, YPart.text, hql]
    have hraf : (z :: z1 :: zs).map Slot.rafsi = ((p :: q :: v).map YPart.pieces).flatten.filter (fun x => ¬ Hyphen x) := by
      have h3 : ([p.core] : List Str).filter (fun x => ¬ Hyphen x) = [p.core] := by
        rw [List.filter_cons_of_pos]
        · rfl
        · rw [hzc] at hu
          simpa using unit_not_hyphen hu
      rw [show ((p :: q :: v).map YPart.pieces).flatten = p.pieces ++ ((q :: v).map YPart.pieces).flatten from rfl, List.filter_append, hone, h3,
        List.map_cons, hz.rafsi, hzc]
      rfl
    have hun : ∀ y ∈ z :: z1 :: zs, UnitOf s y.rafsi y.kind := by
      intro y hy
      rcases List.mem_cons.1 hy with rfl | hy
      · exact hu
      · exact hz.unit y hy
    have hd : p.pieces.drop 2 = [] := by rw [hone]; rfl
    rw [hd, List.nil_append]
    rcases thin_enough hy hE hexp hlen hraf hun (by simp) with hen | ⟨hall, r, hr, hrk, x, hx, hxh⟩
    · obtain ⟨a1, a2, a3, a4⟩ := assemble hU ⟨hsp, hvl⟩ hu hw hz (hF _ z1 hhead) (joint_y hl) (by
          rintro ⟨u, y, rest, hu, e, h, -⟩
          obtain ⟨a, u, rfl⟩ := List.exists_cons_of_ne_nil hu
          injection e with e1 e2
          subst e1
          exact hnr (h z (by simp)).2) hen hend
      have hwo : wordOf (z :: z1 :: zs) hy = p.text ++ s%"y" ++ txt := by rw [wordOf, htx, hz.text]
      have hthin := (thin_refl (p.text ++ s%"y")).append ht
      refine ⟨_, hy, [], [], _, a1, a2, hraf, a3, a4, fun _ => rfl, .inl rfl, ?_, rfl, ?_⟩
      · rw [hwo, joinParts]
        have := thin_weight hthin
        rw [show letterWeight [] = 0 from rfl]
        omega
      · intro h0
        rw [h0] at ht
        rw [hwo, ht.eq]
        rfl
    · have hvz := hall z (by simp)
      have hv1 := hall z1 (by simp)
      obtain ⟨hzr, hzk⟩ := unit_vv hu hvz
      obtain ⟨hr1, hk1⟩ := unit_vv (hz.unit z1 (by simp)) hv1
      obtain ⟨u, t, er⟩ := List.append_of_mem hr
      have hPr := hE.parts u r t er
      have hkr := hPr.kind
      rw [hrk] at hkr
      have hxr : x ∈ [s%"r", s%"n"] := by
        rcases part_pieces_kind hkr hPr.noY x hx with h | h
        · exact absurd hxh (rafsi_not_hyphen h.1)
        · exact h
      have hforce : s.yHyphens ≠ .forceY := glue_notForce hkr.reading.first hkr.reading.links hx hxr
      have hccv : ¬ (zs.length + 2 = 2 ∧ pattern z1.rafsi = s%"CCV") := by
        rintro ⟨-, h⟩
        have := (unit_ccv (hz.unit z1 (by simp)) h).2
        rw [hk1] at this
        cases this
      obtain ⟨g1, hzt, -⟩ := hz.written [] z1 zs rfl
      rw [leading_rafsi hr1, List.nil_append] at hzt
      obtain ⟨hpair, htri⟩ := vowel_joint s.allowMz hvz z1.rafsi
      obtain ⟨a1, a2, a3, a4⟩ := assemble (z0 := ⟨z.rafsi, .vv, z.rafsi⟩) (hy := if z1.text.head? = some 'r' then s%"n" else s%"r") (hzk ▸ hU) ⟨hsp, hvl⟩
        (hzk ▸ hu) ⟨[], by simp [leading_rafsi hzr], .inl rfl⟩ hz (glue_first hzr hvz hforce hccv) (joint_bare hr1 ⟨g1, hzt⟩ hpair htri) (by
          rintro ⟨u, y, rest, hu, e, h, -⟩
          obtain ⟨a, u, rfl⟩ := List.exists_cons_of_ne_nil hu
          injection e with e1 e2
          subst e1
          have h3 := (h ⟨z.rafsi, .vv, z.rafsi⟩ (by simp)).1
          have h4 := vowel_pattern hzr hvz
          simp only at h3
          rw [h3] at h4
          exact absurd h4 (by decide))
        (by by_cases h : z1.text.head? = some 'r'
            · rw [if_pos h]; exact .inr (.inl rfl)
            · rw [if_neg h]; exact .inl rfl) hend
      refine ⟨_, _, [], [], _, a1, a2, hraf, a3, a4, fun _ => rfl, .inl rfl, ?_, rfl, ?_⟩
      · rw [wordOf, hz.text, joinParts]
        have hpt : p.text ++ s%"y" = p.core ++ suffix false p.trail := by
          unfold YPart.text suffix
          rw [hlead]
          cases p.trail <;> simp
        rw [hpt]
        have h3 := thin_weight ht
        have h4 : ∀ b, letterWeight (suffix false b) ≥ 1100 := by decide
        have h5 : letterWeight (if z1.text.head? = some 'r' then s%"n" else s%"r") = 1000 := by split <;> decide
        have h6 := h4 p.trail
        show letterWeight (z.rafsi ++ _ ++ txt) ≤ _ + 0
        rw [letterWeight_append, letterWeight_append, letterWeight_append, letterWeight_append, hzc]
        omega
      · intro h0
        exfalso
        refine glue_pos (x := x) ?_ hxr h0
        rcases List.mem_cons.1 hr with rfl | hr
        · rw [hone] at hx
          simp at hx
          subst hx
          rw [hzc] at hu
          exact absurd hxh (unit_not_hyphen hu)
        · exact List.mem_flatten.2 ⟨_, List.mem_map.2 ⟨r, hr, rfl⟩, hx⟩
  · have hkr : p.kind = .rafsi := Classical.byContradiction fun h => hone (part_single hP h)
    have hkind := hP.kind
    rw [hkr] at hkind
    obtain ⟨x, l, hpl⟩ := List.exists_cons_of_ne_nil hne
    obtain ⟨g, rest, rfl⟩ : ∃ g rest, l = g :: rest := by
      cases l with
      | nil =>
        have := hkind.core
        rw [hpl] at this
        simp at this
        exact absurd (by rw [hpl, this]) hone
      | cons g rest => exact ⟨g, rest, rfl⟩
    obtain ⟨v0, e', z1, zs1, xs, txt1, hy0, rfl, hsv, hxr, hxd, hxk, hz1, hB, hfl, hth, hJ, hcase⟩ := first_many hP h1 hpl
    have hn := shown_names hxr hsv
    have hzz := hz1.append hz
    have hraf : (⟨x, kindOf x, x⟩ :: (z1 :: zs1 ++ zs)).map Slot.rafsi = ((p :: q :: v).map YPart.pieces).flatten.filter (fun x => ¬ Hyphen x) := by
      rw [show ((p :: q :: v).map YPart.pieces).flatten = p.pieces ++ ((q :: v).map YPart.pieces).flatten from rfl, List.filter_append, hfl,
        List.map_cons, hzz.rafsi]
      rfl
    have hun : ∀ y ∈ (⟨x, kindOf x, x⟩ : Slot) :: (z1 :: zs1 ++ zs), UnitOf s y.rafsi y.kind := by
      intro y hy
      rcases List.mem_cons.1 hy with rfl | hy
      · exact .rafsi hxr hxd
      · exact hzz.unit y hy
    have hlen3 : 1 ≤ (zs1 ++ zs).length := by
      have := List.length_pos_iff.2 hz.ne
      rw [List.length_append]
      omega
    obtain ⟨hy, hF, hhy⟩ : ∃ hy, FirstHyphen s false ((zs1 ++ zs).length + 2) ⟨x, kindOf x, x⟩ z1 hy ∧
        ((hy = hy0 ∧ (VowelRafsi x → Hyphen g ∧ s.yHyphens ≠ .forceY)) ∨
          (hy0 = [] ∧ VowelRafsi x ∧ ¬ Hyphen g ∧ hy = if s.yHyphens = .forceY then s%"'y" else if z1.text.head? = some 'r' then s%"n" else s%"r")) := by
      by_cases hv : VowelRafsi x
      · refine ⟨_, many_first hxr hv (by rintro ⟨h, -⟩; omega), ?_⟩
        rcases hcase with ⟨rfl, hnv⟩ | ⟨-, hf, hgh, rfl⟩
        · exact .inr ⟨rfl, hv, hnv, rfl⟩
        · exact .inl ⟨if_neg hf, fun _ => ⟨hgh, hf⟩⟩
      · rcases hcase with ⟨rfl, hnv⟩ | ⟨hv', -⟩
        · exact ⟨[], bare_first hxr hv, .inl ⟨rfl, fun h => absurd h hv⟩⟩
        · exact absurd hv' hv
    have hen : Enough s (⟨x, kindOf x, x⟩ :: (z1 :: zs1 ++ zs)) hy := by
      rcases thin_enough hy hE hexp hlen hraf hun (by simp) with h | ⟨h, r, hr, hrk, x', hx', hxh⟩
      · exact h
      · have hv : VowelRafsi x := h ⟨x, kindOf x, x⟩ (by simp)
        have hforce : s.yHyphens ≠ .forceY := by
          obtain ⟨u, t, er⟩ := List.append_of_mem hr
          have hPr := hE.parts u r t er
          have hkr := hPr.kind
          rw [hrk] at hkr
          refine glue_notForce hkr.reading.first hkr.reading.links hx' ?_
          rcases part_pieces_kind hkr hPr.noY x' hx' with h | h
          · exact absurd hxh (rafsi_not_hyphen h.1)
          · exact h
        have hh : hy = if z1.text.head? = some 'r' then s%"n" else s%"r" := by
          rcases hhy with ⟨rfl, h⟩ | ⟨-, -, -, h⟩
          · rcases hcase with ⟨-, hnv⟩ | ⟨-, -, -, h⟩
            · exact absurd (h hv).1 hnv
            · exact h
          · rw [h, if_neg hforce]
        rw [hh]
        by_cases h : z1.text.head? = some 'r'
        · rw [if_pos h]; exact .inr (.inl rfl)
        · rw [if_neg h]; exact .inl rfl
    have hBB : BareSlots s.allowMz (⟨x, kindOf x, x⟩ :: z1 :: zs1) := by
      refine ⟨?_, ?_⟩
      · intro y hy
        rcases List.mem_cons.1 hy with rfl | hy
        · exact ⟨hxr, rfl⟩
        · exact hB.1 y hy
      · intro u y t e ht
        cases u with
        | nil => cases e; rfl
        | cons a u =>
          injection e with e3 e4
          exact hB.2 u y t e4 ht
    have htos : ¬ Tosmabru (⟨x, kindOf x, x⟩ :: (z1 :: zs1 ++ zs)) := by
      intro htos
      obtain ⟨x0, xs0, y0, e0, b1, b2, b3, b4⟩ := again_tos (zs' := zs) hBB (by
          intro z hz
          obtain ⟨u, t, e⟩ := List.append_of_mem hz
          obtain ⟨h, ht, -⟩ := hz1.written u z t e
          rw [leading_rafsi (hB.1 z hz).1, List.nil_append] at ht
          exact ⟨h, ht⟩) (by
          intro z hz hk htx
          obtain ⟨u, t, e⟩ := List.append_of_mem hz
          obtain ⟨h, ht, htr⟩ := hz1.written u z t e
          rw [leading_rafsi (hB.1 z hz).1, List.nil_append, htx] at ht
          have : h = [] := by simpa using ht
          subst this
          rw [hk] at htr
          simp [Trailing] at htr) (by
          intro z hz
          rw [List.getLast?_cons_cons] at hz
          exact hz1.ends rfl z hz) htos
      have hfl' : p.pieces.filter (fun x => ¬ Hyphen x) = x0 :: xs0 ++ [y0] := by
        rw [hfl, ← e0, List.map_cons, hz1.rafsi]
      have hcv : ∀ x, pattern x = s%"CVC" ∨ pattern x = s%"CVCCV" → ¬ VowelRafsi x := by
        rintro x hx ⟨c, a, b, ha, hb, rfl | rfl⟩
        · rcases hx with hx | hx
          · obtain ⟨_, _, _, e, -, -, h⟩ := tarmi_cvc.1 (pattern_cvc.1 hx)
            cases e
            exact vowel_not_consonant hb ((isConsonant_iff _).1 h)
          · have := congrArg List.length hx; simp [pattern] at this
        · rcases hx with hx | hx
          · have := congrArg List.length hx; simp [pattern] at this
          · have := congrArg List.length hx; simp [pattern] at this
      have hself := filter_no_vowel hkind.reading.first (fun y hy => (part_pieces_kind hkind hP.noY y hy).imp And.left id) hkind.reading.links (by
        intro y hy
        rw [hfl'] at hy
        simp only [List.cons_append, List.mem_cons, List.mem_append, List.not_mem_nil, or_false] at hy
        rcases hy with rfl | hy | rfl
        · exact hcv _ (.inl b1)
        · exact hcv _ (.inl (b2 y hy))
        · rcases b4 with h | h
          · exact hcv _ (.inr h.1)
          · exact hcv _ (.inl h))
      refine hkind.tosmabru rfl ?_
      rw [← hkind.core, ← hself, hfl']
      exact tosm_fallsOff b1 b2 b3 b4
    obtain ⟨a1, a2, a3, a4⟩ := assemble (z0 := ⟨x, kindOf x, x⟩) hn.usable ⟨hn.spelled, hn.short⟩ (.rafsi hxr hxd)
      ⟨[], by simp [leading_rafsi hxr], by rcases hxk with h | h | h <;> simp [h, Trailing]⟩ hzz hF hJ htos hen (by
        obtain ⟨l, hl, hv⟩ := hend
        exact ⟨l, by rw [List.getLast?_append, hl]; rfl, hv⟩)
    have hwo : wordOf (⟨x, kindOf x, x⟩ :: (z1 :: zs1 ++ zs)) hy = x ++ hy ++ txt1 ++ txt := by
      rw [wordOf, hzz.text]
      simp
    have hthin := hth.append ht
    have heq : glueCount (p.pieces.drop 2 ++ ((q :: v).map YPart.pieces).flatten) = 0 → x ++ hy0 ++ txt1 ++ txt = joinParts (p :: q :: v) := by
      intro h0
      rw [glue_append, hpl, show (x :: g :: rest).drop 2 = rest from rfl] at h0
      rw [h0] at hthin
      rw [joinParts]
      exact hthin.eq
    have hwt := thin_weight hthin
    have hw0 : wordOf (⟨x, kindOf x, x⟩ :: (z1 :: zs1 ++ zs)) hy = x ++ hy ++ (txt1 ++ txt) := by rw [hwo]; simp
    rcases hhy with ⟨rfl, hvh⟩ | ⟨rfl, hv, hnv, hhy⟩
    · refine ⟨⟨x, kindOf x, x⟩ :: (z1 :: zs1 ++ zs), hy, [], [], _, a1, a2, hraf, a3, a4, fun _ => rfl, .inl rfl, ?_, rfl, ?_⟩
      · rw [hwo, joinParts]
        rw [show letterWeight [] = 0 from rfl]
        omega
      · intro h0
        rw [hwo]
        exact heq h0
    · have hgz : g = z1.rafsi := by
        have h5 := hfl
        rw [hpl, filter_rafsi hxr, List.filter_cons_of_pos (by simpa using hnv), ← hz1.rafsi] at h5
        simp at h5
        exact h5.1
      have hz1r := (hB.1 z1 (by simp)).1
      have hgh : g.head? = z1.text.head? := by
        obtain ⟨k, hk, -⟩ := hz1.written [] z1 zs1 rfl
        rw [leading_rafsi hz1r, List.nil_append] at hk
        obtain ⟨a, t, he, -⟩ := rafsi_first hz1r
        rw [hk, hgz, he]
        rfl
      have hgne : g ≠ [] := by
        rw [hgz]
        obtain ⟨a, t, he, -⟩ := rafsi_first hz1r
        rw [he]; simp
      obtain ⟨b, hb, hbh⟩ : ∃ b, joinParts (p :: q :: v) = x ++ b ∧ b.head? = g.head? := by
        refine ⟨g ++ rest.flatten ++ (if p.trail then s%"'" else []) ++ s%"y" ++ joinParts (q :: v), ?_, ?_⟩
        · rw [joinParts, YPart.text, hlead, ← hkind.core, hpl]
          simp
        · obtain ⟨a, t, rfl⟩ := List.exists_cons_of_ne_nil hgne
          rfl
      refine ⟨⟨x, kindOf x, x⟩ :: (z1 :: zs1 ++ zs), hy, x, hy, b, a1, a2, hraf, a3, a4, ?_, ?_, ?_, hb, ?_⟩
      · intro h
        exact absurd (h x g rest hpl hv) hnv
      · rw [hbh, hgh]
        exact .inr hhy
      · have e1 : letterWeight (x ++ [] ++ txt1 ++ txt) = letterWeight x + letterWeight txt1 + letterWeight txt := by
          rw [List.append_nil, letterWeight_append, letterWeight_append]
        rw [e1] at hwt
        rw [hw0, letterWeight_append, letterWeight_append, letterWeight_append, joinParts]
        omega
      · intro h0
        have h5 := heq h0
        rw [hb] at h5
        simp only [List.append_nil, List.append_assoc] at h5
        rw [hw0, List.append_cancel_left h5]

end Jvotci
