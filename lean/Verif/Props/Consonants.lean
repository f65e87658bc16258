import Verif.Lemmas.Units
import Verif.Props.Extended
import Verif.Props.Pinned
import Verif.Lemmas.Mz

/-!
# C58: how many consonants a brivla has
-/

namespace Jvotci

namespace Spec

/-- The number of consonants in a word. -/
def consonantsIn (w : Str) : Nat := (w.filter (fun c => Consonant c)).length

/-- The number of pieces that begin with an on-glide. -/
def onglidesIn (ps : List Str) : Nat := (ps.filter (fun p => Onglide p)).length

end Spec

open Spec

theorem consonantsIn_append {u v : Str} : consonantsIn (u ++ v) = consonantsIn u + consonantsIn v := by
  simp [consonantsIn]

theorem onglidesIn_append {u v : List Str} : onglidesIn (u ++ v) = onglidesIn u + onglidesIn v := by
  simp [onglidesIn]

theorem consonantsIn_cons {a : Char} {u : Str} : consonantsIn (a :: u) = (if Consonant a then 1 else 0) + consonantsIn u := by
  unfold consonantsIn
  by_cases h : Consonant a
  · simp [h]; omega
  · simp [h]

theorem consonantsIn_all {u : Str} (h : ∀ c ∈ u, Consonant c) : consonantsIn u = u.length := by
  unfold consonantsIn
  rw [List.filter_eq_self.2]
  simpa using h

theorem rafsi_consonants {mz : Bool} {p : Str} (h : Rafsi mz p) : 1 ≤ consonantsIn p ∧ (¬ VowelRafsi p → 2 ≤ consonantsIn p) := by
  cases h with
  | @cvv a b c ha hb hc =>
    simp only [consonantsIn_cons, if_pos ha]
    exact ⟨by omega, fun h => absurd ⟨a, b, c, hb, hc, .inl rfl⟩ h⟩
  | @cvhv a b c ha hb hc =>
    simp only [consonantsIn_cons, if_pos ha]
    exact ⟨by omega, fun h => absurd ⟨a, b, c, hb, hc, .inr rfl⟩ h⟩
  | @cvc a b c ha hb hc =>
    simp only [consonantsIn_cons, if_pos ha, if_pos hc]
    omega
  | @ccv a b c hi hc =>
    simp only [consonantsIn_cons, if_pos (initial_consonants hi).1, if_pos (initial_consonants hi).2]
    omega
  | @cvcc a b c d ha hb hp =>
    simp only [consonantsIn_cons, if_pos ha, if_pos hp.1, if_pos hp.2.1]
    omega
  | @ccvc a b c d hi hc hd =>
    simp only [consonantsIn_cons, if_pos (initial_consonants hi).1, if_pos (initial_consonants hi).2]
    omega
  | gismu hg =>
    cases hg with
    | @cvccv a b c d e ha hb hp he =>
      simp only [consonantsIn_cons, if_pos ha, if_pos hp.1, if_pos hp.2.1]
      omega
    | @ccvcv a b c d e hi hc hd he =>
      simp only [consonantsIn_cons, if_pos (initial_consonants hi).1, if_pos (initial_consonants hi).2]
      omega

/-- Without y, every piece has a consonant. -/
theorem reading_consonants {y : YHyphens} {mz : Bool} {ps : List Str} (h : Reading y mz ps) (hy : 'y' ∉ ps.flatten) :
    ps.length ≤ consonantsIn ps.flatten ∧ ((∃ x ∈ ps, ¬ VowelRafsi x) → 2 ≤ consonantsIn ps.flatten) := by
  have hp : ∀ p ∈ ps, 1 ≤ consonantsIn p := by
    intro p hp
    rcases reading_pieces h p hp with hh | hr
    · rcases hyphen_no_y hh (fun h => hy (List.mem_flatten.2 ⟨p, hp, h⟩)) with rfl | rfl <;> decide
    · exact (rafsi_consonants hr).1
  have hall : ∀ l : List Str, (∀ p ∈ l, 1 ≤ consonantsIn p) → l.length ≤ consonantsIn l.flatten := by
    intro l
    induction l with
    | nil => intro _; simp
    | cons a l ih =>
      intro h
      have h1 := h a (by simp)
      have h2 := ih (fun p hp => h p (by simp [hp]))
      rw [List.flatten_cons, consonantsIn_append, List.length_cons]
      omega
  refine ⟨hall ps hp, ?_⟩
  rintro ⟨x, hx, hv⟩
  obtain ⟨u, v, e⟩ := List.append_of_mem hx
  rcases reading_pieces h x hx with hh | hr
  · obtain ⟨q, hq, hqr⟩ := h.first
    have : 2 ≤ ps.length := by
      match ps, e, hq, hx with
      | [], _, hq, _ => simp at hq
      | [a], _, hq, hx =>
        exfalso
        simp at hq hx
        subst hq hx
        exact rafsi_not_hyphen hqr hh
      | _ :: _ :: _, _, _, _ => simp
    exact Nat.le_trans this (hall ps hp)
  · have h2 := (rafsi_consonants hr).2 hv
    rw [e]
    simp only [List.flatten_append, List.flatten_cons, consonantsIn_append]
    omega

theorem joinParts_consonants : ∀ {ps : List YPart}, (ps.map (fun p => consonantsIn p.core)).sum ≤ consonantsIn (joinParts ps)
  | [] => by simp
  | [p] => by simp [joinParts, YPart.text, consonantsIn_append]; omega
  | p :: q :: v => by
    have ih := joinParts_consonants (ps := q :: v)
    rw [List.map_cons, List.sum_cons]
    simp only [joinParts, YPart.text, consonantsIn_append]
    omega

theorem joinPieces_onglides : ∀ {ps : List YPart}, (ps.map (fun p => onglidesIn p.pieces)).sum ≤ onglidesIn (joinPieces ps)
  | [] => by simp
  | [p] => by simp [joinPieces]
  | p :: q :: v => by
    have ih := joinPieces_onglides (ps := q :: v)
    rw [List.map_cons, List.sum_cons]
    simp only [joinPieces, onglidesIn_append]
    omega

theorem sum_mem_le {α : Type} {f : α → Nat} {a : α} : ∀ {l : List α}, a ∈ l → f a ≤ (l.map f).sum := by
  intro l
  induction l with
  | nil => intro h; cases h
  | cons b l ih =>
    intro h
    rw [List.map_cons, List.sum_cons]
    rcases List.mem_cons.1 h with rfl | h
    · omega
    · have := ih h; omega

theorem cvc_consonants {x : Str} (h : pattern x = s%"CVC") : consonantsIn x = 2 := by
  simp only [pattern_eq_cons, pattern_nil, pat_c, pat_v] at h
  obtain ⟨a, _, rfl, ha, b, _, rfl, hb, c, _, rfl, hc, rfl⟩ := h
  have ha := (isConsonant_iff a).1 ha
  have hb := vowel_not_consonant ((isVowel_iff b).1 hb)
  have hc := (isConsonant_iff c).1 hc
  simp [consonantsIn, ha, hb, hc]

/-- An experimental rafsi is not of the shape CVV. -/
theorem exp_not_cvv {s : Settings} {last nl : Bool} {c : Prop} {p : YPart} (h : ExpPart s last nl c p) : pattern p.core ≠ s%"CVV" := by
  intro hp
  simp only [pattern_eq_cons, pattern_nil, pat_c, pat_v] at hp
  obtain ⟨a, _, e, ha, b, _, rfl, hb, d, _, rfl, hd, rfl⟩ := hp
  have ha := (isConsonant_iff a).1 ha
  have hb := (isVowel_iff b).1 hb
  have hd := (isVowel_iff d).1 hd
  obtain ⟨syls, hf, hv, hg⟩ := h.sounds.vowels [a] [b, d] [] ⟨by rw [e]; rfl, by simp, by simp [hb, hd],
    by simp [consonant_not_vowel ha], by simp⟩
  cases hv with
  | @one x hx =>
    simp only [List.flatten_cons, List.flatten_nil, List.append_nil] at hf
    subst hf
    rcases hx with hn | hx
    · refine h.unreadable [[a, b, d]] (reading_oneRafsi (.cvv ha hb hd) ?_) (by rw [e]; simp)
      intro c' a' b' e' _ _
      cases e'
      simp only [Nucleus, List.mem_cons, List.not_mem_nil, or_false, reduceCtorEq, List.cons.injEq, and_false, false_or] at hn
      simpa using hn
    · exact hg (by simp) _ rfl hx
  | @more l x hl hx _ =>
    obtain ⟨g, n, -, hn, rfl⟩ := hx
    have h1 : n ≠ [] := by rintro rfl; exact absurd hn (by decide)
    have h2 : l.flatten ≠ [] := by
      intro he
      have hne : ∀ {l : List Str}, VowelRun l → l.flatten ≠ [] := by
        intro l hl
        induction hl with
        | one h =>
          rcases h with h | ⟨g, n, -, -, rfl⟩
          · rintro he; simp at he; subst he; exact absurd h (by decide)
          · simp
        | more _ h _ _ =>
          obtain ⟨g, n, -, -, rfl⟩ := h
          simp
      exact hne hl he
    have := congrArg List.length hf
    have h3 := List.length_pos_iff.2 h1
    have h4 := List.length_pos_iff.2 h2
    simp only [List.flatten_append, List.length_append, List.flatten_cons, List.flatten_nil, List.append_nil, List.length_cons, List.length_nil] at this
    omega

theorem zihevla_consonants {s : Settings} {last nl : Bool} {c : Prop} {p : YPart} (h : ZihevlaPart s last nl c p) : 2 ≤ consonantsIn p.core := by
  obtain ⟨u, ch, t, hr, h2, -⟩ := h.cluster
  have h1 : consonantsIn (p.whole last) = consonantsIn p.core := by
    unfold YPart.whole
    split
    · rw [consonantsIn_append]; simp only [consonantsIn]; simp; decide
    · rfl
  rw [← h1, hr.eq, consonantsIn_append, consonantsIn_append, consonantsIn_all hr.all]
  omega

/-- What counts as consonants in a part are its consonants and, if that option is set, an on-glide. -/
theorem part_consonants {s : Settings} {cm first last nl : Bool} {c : Prop} {p : YPart} (h : PartOk s cm first last nl c p) :
    YPart.count s p ≤ consonantsIn p.core + (if s.glides = true ∧ s.expRafsi = true then onglidesIn p.pieces else 0) ∧
      (p.kind = .cvc ∨ p.Cluster → 2 ≤ consonantsIn p.core) := by
  have hk := h.kind
  unfold YPart.count YPart.Cluster
  cases hc : p.kind with
  | cvc =>
    rw [hc] at hk
    dsimp only at hk ⊢
    rw [cvc_consonants hk.1]
    exact ⟨by omega, fun _ => by omega⟩
  | rafsi =>
    rw [hc] at hk
    dsimp only at hk ⊢
    have hy := h.noY
    rw [← hk.core] at hy ⊢
    have := reading_consonants hk.reading hy
    refine ⟨by omega, ?_⟩
    rintro (h | h | ⟨-, h⟩)
    · cases h
    · cases h
    · exact this.2 h
  | zihevla =>
    rw [hc] at hk
    dsimp only at hk ⊢
    have := zihevla_consonants hk
    exact ⟨by omega, fun _ => this⟩
  | exp =>
    rw [hc] at hk
    dsimp only at hk ⊢
    rw [if_neg (exp_not_cvv hk)]
    refine ⟨?_, by simp⟩
    split
    · rename_i hs
      rcases hs with hs | ⟨hg, ho⟩
      · cases hcore : p.core with
        | nil => rw [hcore] at hs; exact absurd hs id
        | cons a t =>
          rw [hcore] at hs
          rw [consonantsIn_cons, if_pos (show Consonant a from hs)]
          omega
      · rw [if_pos ⟨hg, hk.option⟩, hk.pieces]
        simp [onglidesIn, ho]
    · omega

theorem extended_cluster {s : Settings} {ps : List YPart} (h : ExtendedLujvo s ps) (hc : PartsCluster s ps) : 2 ≤ consonantsIn (joinParts ps) := by
  have two : ∀ p ∈ ps, p.kind = .cvc ∨ p.Cluster → 2 ≤ consonantsIn (joinParts ps) := by
    intro p hpm hc
    obtain ⟨u, v, e⟩ := List.append_of_mem hpm
    have h1 := (part_consonants (h.parts u p v e)).2 hc
    have h2 := sum_mem_le (f := fun p : YPart => consonantsIn p.core) hpm
    have := joinParts_consonants (ps := ps)
    omega
  rcases hc with ⟨p, hpm, hc⟩ | ⟨u, p, q, v, e, hc, -⟩
  · exact two p hpm (.inr hc)
  · exact two p (by rw [e]; simp) (.inl hc)

theorem extended_consonants {s : Settings} {ps : List YPart} (h : ExtendedLujvo s ps) :
    2 ≤ consonantsIn (joinParts ps) ∨ (s.consonants ≠ .cluster ∧ (if s.consonants = .oneConsonant then 1 else 2) ≤
      consonantsIn (joinParts ps) + (if s.glides = true ∧ s.expRafsi = true then onglidesIn (joinPieces ps) else 0)) := by
  have hp : ∀ p ∈ ps, ∃ cm f l nl c, PartOk s cm f l nl c p := by
    intro p hp
    obtain ⟨u, v, rfl⟩ := List.append_of_mem hp
    exact ⟨_, _, _, _, _, h.parts u p v rfl⟩
  have hj := joinParts_consonants (ps := ps)
  rcases h.consonants with hc | ⟨h1, h2, -⟩
  · exact .inl (extended_cluster h hc)
  · refine .inr ⟨h1, Nat.le_trans h2 (Nat.le_trans ?_ (Nat.add_le_add hj (Nat.le_refl _)))⟩
    have hg := joinPieces_onglides (ps := ps)
    have key : ∀ l : List YPart, (∀ p ∈ l, ∃ cm f l nl c, PartOk s cm f l nl c p) → (l.map (YPart.count s)).sum ≤
        (l.map (fun p => consonantsIn p.core)).sum + (if s.glides = true ∧ s.expRafsi = true then (l.map (fun p => onglidesIn p.pieces)).sum else 0) := by
      intro l
      induction l with
      | nil => intro _; simp
      | cons p l ih =>
        intro h
        obtain ⟨cm, f, l, nl, c, hok⟩ := h p (by simp)
        have h1 := (part_consonants hok).1
        have h2 := ih (fun p hp => h p (by simp [hp]))
        simp only [List.map_cons, List.sum_cons]
        split at h1 <;> rename_i hc
        · rw [if_pos hc] at h2 ⊢
          omega
        · rw [if_neg hc] at h2 ⊢
          omega
    have := key ps hp
    split at this <;> rename_i hc
    · rw [if_pos hc]; omega
    · rw [if_neg hc]; omega

theorem pieces_consonants {s : Settings} {ps : List Str} (h : LujvoPieces s ps) : 2 ≤ consonantsIn ps.flatten := by
  obtain ⟨p, hp, hpr⟩ := h.reading.first
  obtain ⟨u, q, e, hq⟩ := reading_last h.reading
  have h2 := h.two
  cases u with
  | nil => rw [e] at h2; simp at h2
  | cons p' u =>
    rw [e] at hp ⊢
    cases hp
    have h1 := (rafsi_consonants hpr).1
    have h2 := (rafsi_consonants hq).1
    simp only [List.cons_append, List.flatten_append, List.flatten_cons, consonantsIn_append]
    omega

/-- Words other than extended lujvo have two consonants. -/
theorem brivla_consonants' {s : Settings} {w : Str} {t : BType} {ps : List Str} (hlen : w.length < 10 ^ 93)
    (h : analyseBrivla .linked s w = .ok (t, ps)) (ht : t ≠ .cmevla) (ht' : t ≠ .extendedLujvo) : 2 ≤ consonantsIn (reading w) := by
  have h94 : w.length < 10 ^ 94 := Nat.lt_of_lt_of_le hlen (Nat.pow_le_pow_right (by decide) (by decide))
  cases t with
  | gismu =>
    have hg := (C03_gismu_iff.1 h).2.1
    refine (rafsi_consonants (.gismu hg)).2 ?_
    rintro ⟨c, a, b, -, -, e | e⟩ <;> (rw [e] at hg; cases hg)
  | cmevla => exact absurd rfl ht
  | lujvo =>
    obtain ⟨h1, h2⟩ := C41_only_lujvo h
    rw [← h1]
    exact pieces_consonants h2
  | zihevla =>
    obtain ⟨-, h1, -⟩ := (C45_zihevla h94).1 h
    obtain ⟨u, ch, t, hr, h2, -⟩ := h1.cluster
    rw [hr.eq, consonantsIn_append, consonantsIn_append, consonantsIn_all hr.all]
    omega
  | extendedLujvo => exact absurd rfl ht'

/-- Two consonants, or as many consonants and on-glides as the option asks for. -/
theorem brivla_consonants {s : Settings} {w : Str} {t : BType} {ps : List Str} (hlen : w.length < 10 ^ 93)
    (h : analyseBrivla .linked s w = .ok (t, ps)) (ht : t ≠ .cmevla) :
    2 ≤ consonantsIn (reading w) ∨ (s.consonants ≠ .cluster ∧ (if s.consonants = .oneConsonant then 1 else 2) ≤
      consonantsIn (reading w) + (if s.glides = true ∧ s.expRafsi = true then onglidesIn ps else 0)) := by
  by_cases ht' : t = .extendedLujvo
  · subst ht'
    obtain ⟨parts, h1, h2, h3⟩ := (C47_extended hlen).1 h
    rw [← h1, ← h2]
    exact extended_consonants h3
  · exact .inl (brivla_consonants' hlen h ht ht')

/-- What one program accepts, the other does. -/
theorem linked_of {b : Build} {s : Settings} {w : Str} {t : BType} {ps : List Str} (h : analyseBrivla b s w = .ok (t, ps)) : analyseBrivla .linked s w = .ok (t, ps) := by
  cases b with
  | linked => exact h
  | pinned =>
    rcases C34_import_changes_nothing_else.1 s w with h' | h'
    · rw [h] at h'; cases h'
    · rw [← h']; exact h

/-- **C58**. Unless `consonants` is ONE_CONSONANT, a word accepted as a brivla has at least two consonants. With
experimental rafsi and `glides`, rafsi that begin with an on-glide are counted too. -/
theorem C58_two_consonants {b : Build} {s : Settings} {w : Str} {t : BType} {ps : List Str} (hlen : w.length < 10 ^ 93)
    (h : analyseBrivla b s w = .ok (t, ps)) (ht : t ≠ .cmevla) (hc : s.consonants ≠ .oneConsonant) :
    2 ≤ consonantsIn (reading w) ∨
      (s.consonants = .twoConsonants ∧ s.expRafsi = true ∧ s.glides = true ∧ 2 ≤ consonantsIn (reading w) + onglidesIn ps) := by
  rcases brivla_consonants hlen (linked_of h) ht with h1 | ⟨h1, h2⟩
  · exact .inl h1
  · rw [if_neg hc] at h2
    split at h2 <;> rename_i hg
    · refine .inr ⟨?_, hg.2, hg.1, h2⟩
      cases hs : s.consonants with
      | cluster => exact absurd hs h1
      | twoConsonants => rfl
      | oneConsonant => exact absurd hs hc
    · exact .inl h2

/-- **C58**. In any case it has one, or one rafsi that begins with an on-glide. -/
theorem C58_one_consonant {b : Build} {s : Settings} {w : Str} {t : BType} {ps : List Str} (hlen : w.length < 10 ^ 93)
    (h : analyseBrivla b s w = .ok (t, ps)) (ht : t ≠ .cmevla) :
    (∃ c ∈ reading w, Consonant c) ∨ (s.consonants ≠ .cluster ∧ s.expRafsi = true ∧ s.glides = true ∧ ∃ p ∈ ps, Onglide p) := by
  have key : 1 ≤ consonantsIn (reading w) → ∃ c ∈ reading w, Consonant c := by
    intro h
    obtain ⟨c, hc⟩ := List.exists_mem_of_length_pos h
    rw [List.mem_filter] at hc
    exact ⟨c, hc.1, by simpa using hc.2⟩
  rcases brivla_consonants hlen (linked_of h) ht with h1 | ⟨h1, h2⟩
  · exact .inl (key (by omega))
  · by_cases h0 : 1 ≤ consonantsIn (reading w)
    · exact .inl (key h0)
    · have h3 : 1 ≤ (if s.consonants = .oneConsonant then 1 else 2) := by split <;> omega
      by_cases hg : s.glides = true ∧ s.expRafsi = true
      · rw [if_pos hg] at h2
        refine .inr ⟨h1, hg.2, hg.1, ?_⟩
        have : 0 < onglidesIn ps := by omega
        obtain ⟨p, hp⟩ := List.exists_mem_of_length_pos this
        rw [List.mem_filter] at hp
        exact ⟨p, hp.1, by simpa using hp.2⟩
      · rw [if_neg hg] at h2
        omega

/-- **C58** (partial). The first letter is not all: after it, a consonant or on-glide follows. Missing: that it is a
consonant, which is false (`C58_false`). -/
theorem C58_not_only_initial_partial {b : Build} {s : Settings} {w : Str} {t : BType} {ps : List Str} (hlen : w.length < 10 ^ 93)
    (h : analyseBrivla b s w = .ok (t, ps)) (ht : t ≠ .cmevla) :
    ∃ u v, u ≠ [] ∧ reading w = u ++ v ∧ (ConsonantInitial v ∨ Onglide v) := by
  have key : ∀ {x : Str}, 2 ≤ consonantsIn x → ∃ u v, u ≠ [] ∧ x = u ++ v ∧ (ConsonantInitial v ∨ Onglide v) := by
    intro x hx
    cases x with
    | nil => simp [consonantsIn] at hx
    | cons a x =>
      rw [consonantsIn_cons] at hx
      have : 0 < consonantsIn x := by split at hx <;> omega
      obtain ⟨c, hc⟩ := List.exists_mem_of_length_pos this
      rw [List.mem_filter] at hc
      obtain ⟨u, v, rfl⟩ := List.append_of_mem hc.1
      exact ⟨a :: u, c :: v, by simp, rfl, .inl (show Consonant c by simpa using hc.2)⟩
  have hl := linked_of h
  by_cases h2 : 2 ≤ consonantsIn (reading w)
  · exact key h2
  · cases t with
    | extendedLujvo =>
      obtain ⟨parts, h1, -, h3⟩ := (C47_extended hlen).1 hl
      rcases h3.consonants with hc | ⟨-, -, p, hp, -, hcase⟩
      · exact absurd (h1 ▸ extended_cluster h3 hc) h2
      · cases parts with
        | nil => simp at hp
        | cons q v =>
          obtain ⟨v1, v2, e⟩ := List.append_of_mem (show p ∈ v from hp)
          obtain ⟨x, y, e'⟩ := joinParts_core (u := v1) (p := p) (v := v2)
          rw [← h1]
          cases v with
          | nil => simp at e
          | cons q' v =>
            refine ⟨q.text ++ s%"y" ++ x, p.core ++ y, by simp, by simp only [joinParts, e, e', List.append_assoc], ?_⟩
            rcases hcase with hc | hc
            · left
              cases hcore : p.core with
              | nil => rw [hcore] at hc; exact absurd hc id
              | cons a t => rw [hcore] at hc; exact hc
            · right
              match hcore : p.core, hc with
              | a :: b :: t, hc => exact hc
    | cmevla => exact absurd rfl ht
    | gismu | lujvo | zihevla =>
      exfalso
      rcases brivla_consonants' hlen hl (by decide) (by decide) with h
      exact h2 h

/-- **C58**: what the README says of ONE_CONSONANT, that the consonant cannot be initial, is false. The only consonant of
this word is its first letter, and on-glides do not count as consonants. -/
theorem C58_false : ∃ w ps, analyseBrivla .linked { yHyphens := .allowY, expRafsi := true, consonants := .oneConsonant, glides := false } w =
    .ok (.extendedLujvo, ps) ∧ ∀ c ∈ (reading w).tail, ¬ Consonant c :=
  ⟨s%"su'yiu", [s%"su", s%"'y", s%"iu"], by decide +kernel, by decide +kernel⟩

/-- The bounds are met, README.md lines 264-282 and 295-297. -/
example : analyseBrivla .linked { yHyphens := .allowY, expRafsi := true, consonants := .twoConsonants } s%"nei'ynei" =
      .ok (.extendedLujvo, [s%"nei", s%"'y", s%"nei"]) ∧ consonantsIn s%"nei'ynei" = 2 := by decide +kernel
example : analyseBrivla .linked { yHyphens := .allowY, expRafsi := true, consonants := .twoConsonants } s%"a'ynei" = .error .notBrivla ∧
    analyseBrivla .linked { yHyphens := .allowY, expRafsi := true, consonants := .oneConsonant } s%"a'ynei" =
      .ok (.extendedLujvo, [s%"a", s%"'y", s%"nei"]) ∧ consonantsIn s%"a'ynei" = 1 := by decide +kernel
example : analyseBrivla .linked { yHyphens := .allowY, expRafsi := true, consonants := .twoConsonants, glides := true } s%"ia'yia" =
      .ok (.extendedLujvo, [s%"ia", s%"'y", s%"ia"]) ∧ consonantsIn s%"ia'yia" = 0 ∧ onglidesIn [s%"ia", s%"'y", s%"ia"] = 2 := by
  decide +kernel

end Jvotci
