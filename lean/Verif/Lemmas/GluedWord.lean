import Verif.Lemmas.GluedTos
import Verif.Props.Extended

/-!
# Helper lemmas: a word put together of rafsi and zi'evla is a lujvo or extended lujvo
-/

namespace Jvotci

open Spec

theorem pseg_letters {s : Settings} {f last : Bool} {p : YPart} (h : PSeg s f last p) : ∀ c ∈ p.core, Vowel c ∨ Consonant c ∨ c = '\'' := by
  cases h with
  | cvc h => exact rafsi_letters h
  | @rafsi _ _ _ ps h e hn =>
    intro c hc
    obtain ⟨q, hq, hqr⟩ := h.first
    cases ps with
    | nil => cases hq
    | cons q' v =>
      cases hq
      have := links_letters (fun d hd => by
        rcases rafsi_letters hqr d hd with h | h | h
        · exact .inl h
        · exact .inr (.inl h)
        · exact .inr (.inr (.inl h))) h.links c (by rw [e]; exact hc)
      rcases this with h | h | h | rfl
      · exact .inl h
      · exact .inr (.inl h)
      · exact .inr (.inr h)
      · exact absurd hc hn
  | whole h => exact h.form.sounds.letters
  | cut h => exact zcut_letters h

theorem parts_letters {s : Settings} {f : Bool} {ps : List YPart} (h : Parts s f ps) :
    ∀ c ∈ joinParts ps, Vowel c ∨ Consonant c ∨ c = '\'' ∨ c = 'y' := by
  have one : ∀ {f last : Bool} {p : YPart}, PSeg s f last p → ∀ c ∈ p.text, Vowel c ∨ Consonant c ∨ c = '\'' ∨ c = 'y' := by
    intro f last p h c hc
    unfold YPart.text at hc
    rw [List.mem_append, List.mem_append] at hc
    rcases hc with (hc | hc) | hc
    · split at hc
      · simp at hc; exact .inr (.inr (.inl hc))
      · cases hc
    · rcases pseg_letters h c hc with h | h | h
      · exact .inl h
      · exact .inr (.inl h)
      · exact .inr (.inr (.inl h))
    · split at hc
      · simp at hc; exact .inr (.inr (.inl hc))
      · cases hc
  induction h with
  | one h => exact one h
  | cons h _ ih =>
    intro c hc
    rw [joinParts, List.mem_append, List.mem_append] at hc
    rcases hc with (hc | hc) | hc
    · exact one h c hc
    · simp at hc; exact .inr (.inr (.inr hc))
    · exact ih c hc

theorem reading_lettersY {x : Str} (h : ∀ c ∈ x, Vowel c ∨ Consonant c ∨ c = '\'' ∨ c = 'y') : reading x = x := by
  refine reading_asRead fun d hd => ?_
  rcases h d hd with h | h | h | rfl
  · exact readChar_letter (.inl h)
  · exact readChar_letter (.inr (.inl h))
  · exact readChar_letter (.inr (.inr h))
  · decide

/-- A y that is needed stands behind a consonant. -/
theorem lujvoPieces_y {s : Settings} {qs : List Str} (h : LujvoPieces s qs) : ∀ u p v, qs = u ++ p :: s%"y" :: v →
    ∃ c, p.getLast? = some c ∧ Consonant c := by
  rintro u p v rfl
  have hp : Rafsi s.allowMz p := by
    have := h.reading.links u p s%"y" v rfl
    generalize e : s%"y" = y at this
    cases this with
    | y h => exact h
    | rafsi _ h => have := rafsi_length h; rw [← e] at this; simp at this
    | apostropheY => cases e
    | rOrN _ _ _ h => subst e; simp at h
    | afterY _ h => have := rafsi_length h; rw [← e] at this; simp at this
    | afterR h => have := rafsi_length h; rw [← e] at this; simp at this
    | afterN h => have := rafsi_length h; rw [← e] at this; simp at this
  cases v with
  | nil =>
    obtain ⟨z, hz, hzr⟩ := h.reading.last
    simp at hz
    subst hz
    have := rafsi_length hzr
    simp at this
  | cons q v =>
    obtain ⟨c, hc, h1, h2⟩ := rk_last (rafsi_rk hp)
    refine ⟨c, hc, ?_⟩
    rcases h.y u p q v rfl with hf | ⟨-, hf⟩
    · have hq : Rafsi s.allowMz q := by
        have := h.reading.links (u ++ [p]) s%"y" q v (by simp)
        exact link_afterRN this
      have hnl : kindOf p ≠ .long := by
        intro hk
        have := h.reading.links u p s%"y" (q :: v) rfl
        generalize e : s%"y" = y at this
        have h5 := rafsi_rk hp
        rw [hk] at h5
        cases this with
        | y _ h => cases h5 <;> simp at h
        | rafsi _ h => have := rafsi_length h; rw [← e] at this; simp at this
        | apostropheY => cases e
        | rOrN _ _ _ h => subst e; simp at h
        | afterY _ h => have := rafsi_length h; rw [← e] at this; simp at this
        | afterR h => have := rafsi_length h; rw [← e] at this; simp at this
        | afterN h => have := rafsi_length h; rw [← e] at this; simp at this
      have : NeedY s.allowMz p q := by
        refine Classical.byContradiction fun hn => hf ?_
        exact (needY_iff hp hq hnl).1 hn
      rcases this with h | ⟨h, -⟩
      · exact h1 (.inr h)
      · exact h1 (.inl h)
    · obtain ⟨_, _, _, e, hcvc, -⟩ := falls_inv hf
      cases e
      refine h1 (.inl ?_)
      unfold kindOf
      rw [pattern_cvc.1 hcvc]

theorem glued_one {s : Settings} {x g : Str} {p : YPart} {ps : List YPart} (h : Glued s false [(x, g)] (p :: ps)) : p.pieces = [x] := by
  generalize hff : false = f at h
  generalize hll : [(x, g)] = ll at h
  generalize hqq : p :: ps = qq at h
  cases h with
  | last => cases hll; cases hqq; rfl
  | zlast => cases hll; cases hqq; rfl
  | bare => cases hll
  | rn => cases hll
  | sep => cases hll

/-- A word without y. -/
theorem glued_lujvoPieces {s : Settings} {l : List (Str × Str)} {p : YPart} (h : Glued s true l [p]) (hs : Start s l) (ht : ¬ TosmG l) :
    LujvoPieces s p.pieces ∧ p.pieces.flatten = p.core := by
  obtain ⟨hP, -⟩ := glued_parts h
  have hseg : PSeg s true true p := by
    cases hP with
    | one h => exact h
  have hk : p.kind = .rafsi ∧ 2 ≤ p.pieces.length ∧ ∀ a b v, p.pieces = a :: b :: v → VowelRafsi a → ¬ Hyphen b → v = [] ∧ pattern b = s%"CCV" := by
    generalize hf : true = f at h
    generalize hq : [p] = qs at h
    cases h with
    | last => cases hf
    | zlast => cases hf
    | @bare _ x x' g' t p' _ _ _ _ h _ =>
      cases hq
      obtain ⟨-, x2, g2, t2, p2, v2, e1, e2, e3⟩ := glued_parts h
      cases e1
      cases e2
      cases hpp : p'.pieces with
      | nil => rw [hpp] at e3; cases e3
      | cons z w =>
        rw [hpp] at e3
        cases e3
        refine ⟨rfl, by simp, ?_⟩
        intro a b v e hv _
        cases e
        obtain ⟨rfl, hc⟩ := hs.vv _ _ _ _ rfl hv
        have := glued_one h
        rw [hpp] at this
        cases this
        exact ⟨rfl, hc⟩
    | @rn _ x g x' g' t p' _ _ _ _ hg _ _ h _ =>
      cases hq
      refine ⟨rfl, by simp, ?_⟩
      intro a b v e hv hb
      cases e
      refine absurd ?_ hb
      simp at hg
      rcases hg with rfl | rfl <;> simp [Hyphen]
    | sep => cases hq
  obtain ⟨hk, h2, hfirst⟩ := hk
  have hnoY := pseg_noY hseg
  have hr : Reading s.yHyphens s.allowMz p.pieces ∧ p.pieces.flatten = p.core ∧ ∃ c, p.core.getLast? = some c ∧ Vowel c := by
    cases hseg with
    | rafsi k1 k2 _ _ _ _ k3 => exact ⟨k1, k2, k3 (.inr rfl)⟩
    | whole => cases hk
  obtain ⟨hr, hflat, hv⟩ := hr
  refine ⟨⟨hr, h2, by rw [hflat]; exact hv, hfirst, ?_, ?_, ?_, ?_⟩, hflat⟩
  · intro u a b v e
    exact absurd (by rw [← hflat, e]; simp) hnoY
  · intro u a b v e
    exact absurd (by rw [← hflat, e]; simp) hnoY
  · intro hf
    exact ht (glued_falls h (E := []) rfl (by simpa using hf) (.inl rfl))
  · intro hc
    refine Classical.byContradiction fun hn => ?_
    refine hs.enough (glued_vv h ?_) hc
    intro q hq y hy
    simp at hq
    subst hq
    refine Classical.byContradiction fun hv => hn ⟨y, hy, ?_⟩
    by_cases hh : Hyphen y
    · have hyy : 'y' ∉ y := fun hm => hnoY (by rw [← hflat]; exact List.mem_flatten.2 ⟨y, hy, hm⟩)
      simp only [Hyphen, List.mem_cons, List.not_mem_nil, or_false] at hh
      rcases hh with rfl | rfl | rfl | rfl | rfl | rfl
      · exact .inl rfl
      · exact .inr (.inl rfl)
      all_goals exact absurd (by simp) hyy
    · exact .inr (.inr ⟨hh, hv⟩)

theorem sounds_firstLetter {mz : Bool} {a : Char} {u : Str} (h : Sounds mz (a :: u)) : Vowel a ∨ Consonant a := by
  rcases h.letters a (by simp) with hv | hv | rfl
  · exact .inl hv
  · exact .inr hv
  · obtain ⟨⟨b, hb, -⟩, -⟩ := h.apostrophe [] u rfl
    cases hb

/-- A word put together of rafsi and zi'evla. -/
theorem glued_word {s : Settings} {l : List (Str × Str)} {ps : List YPart} (h : Glued s true l ps) (hs : Start s l) (ht : ¬ TosmG l)
    (hsl : isSlinkuhi (program .linked) s.yHyphens s.allowMz (spell l) = .ok false) (hlen : (spell l).length < 10 ^ 94) :
    ∃ t, (t = .lujvo ∨ t = .extendedLujvo) ∧ analyseBrivla .linked s (spell l) = .ok (t, flat l) := by
  obtain ⟨hP, x0, g0, t0, p, v, el, rfl, hx0⟩ := glued_parts h
  have hlead : p.lead = false := by
    cases hP with
    | one hp => exact pseg_first_lead hp
    | cons hp _ => exact pseg_first_lead hp
  have hspell : joinParts (p :: v) = spell l := by
    have := glued_spell h p v rfl
    rw [hlead] at this
    exact this
  have hflat := glued_flat h
  have hread : reading (spell l) = spell l := by rw [← hspell]; exact reading_lettersY (parts_letters hP)
  have hlen6 : (spell l).length < 10 ^ 96 := Nat.lt_of_lt_of_le hlen (Nat.pow_le_pow_right (by decide) (by decide))
  have hlen5 : (spell l).length < 10 ^ 95 := Nat.lt_of_lt_of_le hlen (Nat.pow_le_pow_right (by decide) (by decide))
  cases v with
  | nil =>
    obtain ⟨hL, e⟩ := glued_lujvoPieces h hs ht
    have htr : p.trail = false := by
      cases hP with
      | one hp =>
        cases htt : p.trail with
        | false => rfl
        | true => have := (pseg_trail hp htt).1; cases this
    have e2 : p.pieces.flatten = spell l := by
      rw [e, ← hspell]
      simp [joinParts, YPart.text, hlead, htr]
    refine ⟨.lujvo, .inl rfl, ?_⟩
    rw [← hflat]
    exact C41_every_lujvo (hread.trans e2.symm) hL (by show p.pieces.flatten.length < _; rw [e2]; exact hlen6)
  | cons q v =>
    by_cases hex : ∃ qs, LujvoPieces s qs ∧ qs.flatten = joinParts (p :: q :: v)
    · obtain ⟨qs, hq, e⟩ := hex
      have := read_parts hP (by rintro _ _ ⟨⟩; exact hlead) hq.reading.links hq.reading.first hq.reading.last hq.reading.diphthongs
        (lujvoPieces_y hq) e
      rw [hflat] at this
      subst this
      refine ⟨.lujvo, .inl rfl, ?_⟩
      rw [hspell] at e
      exact C41_every_lujvo (by rw [hread, e]) hq (by rw [e]; exact hlen6)
    · refine ⟨.extendedLujvo, .inr rfl, ?_⟩
      refine (extended_iff (by rw [hread]; exact hlen)).2 ⟨p :: q :: v, by rw [hread]; exact hspell, hflat, ?_⟩
      obtain ⟨c, hc, hcv⟩ := parts_last hP
      refine extended_of_parts hP (by simp) (glued_firstVV h hs) ?_ ?_ ?_ (fun qs hq e => hex ⟨qs, hq, e⟩) ?_
      · rintro p' v' ⟨⟩ hk
        exact glued_fallsOff h hs ht hk
      · intro hall
        exact hs.enough (glued_vv h fun p' hp' => (hall p' hp').2)
      · intro a b c v' hi hv
        exact glued_begin h hs.ccv hi hv
      · rw [hspell] at hc ⊢
        refine (slinkuhi_word_iff ⟨c, hc, hcv⟩ ?_ hlen5).1 hsl
        rw [← hspell]
        cases hP with
        | cons hp _ =>
          have hne := pseg_letters hp
          have hl := pseg_first_lead hp
          obtain ⟨d, hd, -⟩ := pseg_last hp
          cases hpc : p.core with
          | nil => rw [hpc] at hd; cases hd
          | cons a u =>
            refine ⟨a, by simp [joinParts, YPart.text, hl, hpc], ?_⟩
            cases hp with
            | cvc hz => have := rafsi_initial hz; simp only at hpc; rw [hpc] at this; exact .inr this
            | rafsi hz e => have := reading_head hz; rw [e] at this; simp only at hpc; rw [hpc] at this; exact .inr this
            | whole hz => simp only at hpc; rw [hpc] at hz; exact sounds_firstLetter hz.form.sounds
            | cut hz => simp only at hpc; rw [hpc] at hz; exact sounds_firstLetter (u := u ++ s%"a") hz.whole.form.sounds

end Jvotci
