import Verif.Lemmas.AgainGlide

/-!
# Helper lemmas: making an extended cmevla again from what `get_veljvo` says about it
-/

namespace Jvotci

open Spec

theorem banned_three : ∀ t ∈ bannedTriples, t.length = 3 := by decide

/-- At the end of a cmevla the y falls away. -/
theorem Slotted.strip {s : Settings} {e xs : List Str} {zs : List Slot} {txt : Str} (h : Slotted s false e zs xs txt)
    (hc : ∃ x c, xs.getLast? = some x ∧ x.getLast? = some c ∧ Consonant c) :
    ∃ zs' t c, Slotted s true e zs' xs t ∧ txt = t ++ s%"y" ∧ t.getLast? = some c ∧ Consonant c ∧ ∃ z ∈ zs', z.count s = 2 := by
  obtain ⟨u, z, rfl⟩ : ∃ u z, zs = u ++ [z] := ⟨_, _, (List.dropLast_concat_getLast h.ne).symm⟩
  obtain ⟨x, c, hx, hxc, hcc⟩ := hc
  have hzx : z.rafsi = x := by
    rw [← h.rafsi] at hx
    simpa using hx
  subst hzx
  have hu := h.unit z (by simp)
  obtain ⟨k, hzt, htr⟩ := h.written u z [] rfl
  have hy := h.ends rfl z (by simp)
  have hk : (z.kind = .cvc ∨ z.kind = .short) ∧ k = s%"y" := by
    have hkind : z.kind = .cvc ∨ z.kind = .short := by
      cases hu' : z.kind with
      | cvc => exact .inl rfl
      | short => exact .inr rfl
      | exp => exact absurd hu' (unit_exp hu)
      | vv =>
        exfalso
        rw [hu'] at hu
        generalize hk2 : Kind.vv = k2 at hu
        cases hu with
        | rafsi hr _ =>
          obtain ⟨l, hl, -, hv⟩ := rk_last (rafsi_rk hr)
          rw [hl] at hxc
          cases hxc
          exact vowel_not_consonant (hv (.inl hk2.symm)) hcc
        | whole => cases hk2
        | cut => cases hk2
      | ccv =>
        exfalso
        rw [hu'] at hu
        generalize hk2 : Kind.ccv = k2 at hu
        cases hu with
        | rafsi hr _ =>
          obtain ⟨l, hl, -, hv⟩ := rk_last (rafsi_rk hr)
          rw [hl] at hxc
          cases hxc
          exact vowel_not_consonant (hv (.inr (.inl hk2.symm))) hcc
        | whole => cases hk2
        | cut => cases hk2
      | long =>
        exfalso
        rw [hu'] at hu
        generalize hk2 : Kind.long = k2 at hu
        cases hu with
        | rafsi hr _ =>
          obtain ⟨l, hl, -, hv⟩ := rk_last (rafsi_rk hr)
          rw [hl] at hxc
          cases hxc
          exact vowel_not_consonant (hv (.inr (.inr hk2.symm))) hcc
        | whole hz =>
          obtain ⟨l, hl, hv⟩ := hz.form.vowel
          rw [hl] at hxc
          cases hxc
          exact vowel_not_consonant hv hcc
        | cut => cases hk2
    refine ⟨hkind, ?_⟩
    rcases hkind with hk | hk <;> rw [hk] at htr
    · rcases htr with rfl | ⟨h1, -⟩
      · rw [hzt, List.append_nil, List.getLast?_append, hxc] at hy
        simp at hy
        subst hy
        exact absurd hcc (by decide)
      · exact h1
    · rcases htr with ⟨h1, -⟩ | ⟨-, h1, -⟩
      · exact h1
      · simp at h1
  obtain ⟨hkind, rfl⟩ := hk
  have hlast : (leading false z.rafsi ++ z.rafsi).getLast? = some c := by rw [List.getLast?_append, hxc]; rfl
  have hne : leading false z.rafsi ++ z.rafsi ≠ [] := by intro e; rw [e] at hlast; cases hlast
  have hhead : (leading false z.rafsi ++ z.rafsi).head? = z.text.head? := by
    rw [hzt]
    obtain ⟨a, t, e⟩ := List.exists_cons_of_ne_nil hne
    rw [e]; rfl
  have hcount : (⟨z.rafsi, z.kind, leading false z.rafsi ++ z.rafsi⟩ : Slot).count s = 2 := by
    unfold Slot.count
    rcases hkind with hk | hk <;> simp only [hk]
  have htx := h.text
  refine ⟨u ++ [⟨z.rafsi, z.kind, leading false z.rafsi ++ z.rafsi⟩], (u.map Slot.text).flatten ++ (leading false z.rafsi ++ z.rafsi), c,
    ⟨by simp, ?_, ?_, ?_, ?_, by rw [← h.rafsi]; simp, by simp, by simp⟩, ?_, ?_, hcc, ⟨z.rafsi, z.kind, leading false z.rafsi ++ z.rafsi⟩, by simp, hcount⟩
  · have hr := h.rep
    have key : ∀ {l : List Str} {w : List Slot}, All2 (fun v z => Usable .linked s v (Slot.rafsi z) z.kind ∧ Spelled v ∧ v.length < 10 ^ 90) l (w ++ [z]) →
        All2 (fun v z => Usable .linked s v (Slot.rafsi z) z.kind ∧ Spelled v ∧ v.length < 10 ^ 90) l
          (w ++ [⟨z.rafsi, z.kind, leading false z.rafsi ++ z.rafsi⟩]) := by
      intro l w hw
      induction w generalizing l with
      | nil =>
        cases hw with
        | cons h1 h2 => exact .cons h1 h2
      | cons a w ih =>
        cases hw with
        | cons h1 h2 => exact .cons h1 (ih h2)
    exact key hr
  · intro y hy
    rcases List.mem_append.1 hy with hy | hy
    · exact h.unit y (List.mem_append_left _ hy)
    · simp at hy
      subst hy
      exact hu
  · intro u' y t e
    rcases List.eq_nil_or_concat t with rfl | ⟨t, b, rfl⟩
    · obtain ⟨rfl, h2⟩ := List.append_inj' e rfl
      cases h2
      refine ⟨[], by simp, ?_⟩
      rcases hkind with hk | hk <;> simp only [hk]
      · exact .inl rfl
      · exact .inr ⟨rfl, rfl, c, hxc, consonant_not_vowel hcc⟩
    · have e' : u ++ [⟨z.rafsi, z.kind, leading false z.rafsi ++ z.rafsi⟩] = (u' ++ y :: t) ++ [b] := by rw [e]; simp
      obtain ⟨rfl, -⟩ := List.append_inj' e' rfl
      have := h.written u' y (t ++ [z]) (by simp)
      have he : (t ++ [b]).isEmpty = false := by cases t <;> rfl
      simpa [he] using this
  · intro p q hb
    rcases beside_app hb with hb | hb | ⟨h1, h2⟩
    · obtain ⟨a, b, e⟩ := hb
      exact h.joints p q ⟨a, b ++ [z], by rw [e]; simp⟩
    · obtain ⟨a, b, e⟩ := hb
      have := congrArg List.length e
      simp at this
      omega
    · cases h2
      obtain ⟨u0, rfl⟩ := List.getLast?_eq_some_iff.1 h1
      have hJ := h.joints p z ⟨u0, [], by simp⟩
      refine ⟨?_, ?_, ?_⟩
      · intro a b h3 h4
        exact hJ.pair a b h3 (by rw [← hhead]; exact h4)
      · intro a h3 hm
        by_cases hl : 2 ≤ (leading false z.rafsi ++ z.rafsi).length
        · refine hJ.triple a h3 ?_
          rw [hzt, List.take_append_of_le_length hl]
          exact hm
        · have := banned_three _ hm
          simp only [List.length_cons, List.length_take] at this
          omega
      · intro h3
        refine hJ.hyphen ?_
        rw [← hhead]
        exact h3
  · rw [← htx]
    simp [hzt]
  · rw [List.getLast?_append, hlast]
    rfl

/-- Slots for the parts behind the first y, with a y behind the last. -/
theorem thin_cmevla {s : Settings} (hexp : s.expRafsi = false) : ∀ {v : List YPart} {e : List Str}, v ≠ [] →
    (∀ u p t, v = u ++ p :: t → (∃ nl cl, PartOk s true false false nl cl p) ∧ p.core.length + 2 < 10 ^ 90 ∧ (p.lead = true → ¬ Onglide p.core)) →
    PartsShown s true v e →
    ∃ zs txt, Slotted s false e zs ((v.map YPart.pieces).flatten.filter (fun x => ¬ Hyphen x)) txt ∧
      Thin (glueCount (v.map YPart.pieces).flatten) txt (joinParts v ++ s%"y")
  | [], _, hne, _, _ => absurd rfl hne
  | [p], _, _, hv, .cons (e := e) h1 .nil => by
    obtain ⟨⟨nl, cl, hp⟩, hl, hg⟩ := hv [] p [] rfl
    obtain ⟨zs, txt, hz, ht⟩ := thin_part (last := false) hp hexp hl hg (by simpa using h1)
    exact ⟨zs, txt, by simpa [joinParts] using hz, by simpa [joinParts] using ht⟩
  | p :: q :: v, _, _, hv, .cons (e := e) h1 h2 => by
    obtain ⟨⟨nl, cl, hp⟩, hl, hg⟩ := hv [] p (q :: v) rfl
    obtain ⟨zs, txt, hz, ht⟩ := thin_part (last := false) hp hexp hl hg (by simpa using h1)
    obtain ⟨zs', txt', hz', ht'⟩ := thin_cmevla hexp (v := q :: v) (by simp) (fun u r t e => hv (p :: u) r t (by rw [e]; rfl)) h2
    refine ⟨zs ++ zs', txt ++ txt', ?_, ?_⟩
    · have := hz.append hz'
      rw [List.map_cons, List.flatten_cons, List.filter_append]
      exact this
    · have := ht.append ht'
      rw [List.map_cons, List.flatten_cons, glue_append, joinParts]
      simpa using this

/-- The last of the rafsi. -/
theorem last_unit {s : Settings} {v : List YPart} {p : YPart} {nl : Bool} {cl : Prop} (h : PartOk s true false false nl cl p) (hexp : s.expRafsi = false)
    (hlen : p.core.length + 2 < 10 ^ 90) {c : Char} (hc : p.core.getLast? = some c) :
    ∃ x, (((v ++ [p]).map YPart.pieces).flatten.filter (fun x => ¬ Hyphen x)).getLast? = some x ∧ x.getLast? = some c := by
  obtain ⟨x, hx, hxh, hxl⟩ : ∃ x, p.pieces.getLast? = some x ∧ ¬ Hyphen x ∧ x.getLast? = p.core.getLast? := by
    have hkind := h.kind
    cases hk : p.kind with
    | rafsi =>
      rw [hk] at hkind
      obtain ⟨x, hx, hr⟩ := hkind.reading.last
      exact ⟨x, hx, rafsi_not_hyphen hr, (last_piece hkind hx).2⟩
    | exp => rw [hk] at hkind; have := hkind.option; rw [hexp] at this; cases this
    | cvc =>
      have hone := part_single h (by rw [hk]; simp)
      rw [hk] at hkind
      obtain ⟨a, b, c, e1, h1, h2, h3⟩ := tarmi_cvc.1 (pattern_cvc.1 hkind.1)
      refine ⟨p.core, by rw [hone]; rfl, ?_, rfl⟩
      rw [e1]
      exact rafsi_not_hyphen (mz := s.allowMz) (.cvc ((isConsonant_iff _).1 h1) ((isVowel_iff _).1 h2) ((isConsonant_iff _).1 h3))
    | zihevla =>
      have hone := part_single h (by rw [hk]; simp)
      refine ⟨p.core, by rw [hone]; rfl, ?_, rfl⟩
      rw [hk] at hkind
      have hb : (10 : Nat) ^ 93 = 1000 * 10 ^ 90 := by decide
      have hW := zpart_whole hkind (by omega) (hkind.syllables (.inr hexp))
      unfold YPart.whole at hW
      split at hW
      · exact unit_not_hyphen (s := s) (.cut ⟨hW, fun hc => hkind.unreadable (.inr (.inr hc)), h.ends⟩)
      · exact unit_not_hyphen (.whole hW)
  refine ⟨x, ?_, hxl.trans hc⟩
  obtain ⟨u, hu⟩ := List.getLast?_eq_some_iff.1 hx
  rw [List.map_append, List.flatten_append, List.filter_append]
  simp only [List.map_cons, List.map_nil, List.flatten_cons, List.flatten_nil, List.append_nil, hu, List.filter_append]
  rw [List.filter_cons_of_pos (by simpa using hxh)]
  simp

/-- A first slot and slots for the rest make a cmevla. -/
theorem assemble_cmevla {s : Settings} {z0 z1 : Slot} {zs : List Slot} {hy v0 txt : Str} {es ys : List Str} (hU : Usable .linked s v0 z0.rafsi z0.kind)
    (hsp : Spelled v0 ∧ v0.length < 10 ^ 90) (hw : z0.Written true false) (hz : Slotted s true es (z1 :: zs) ys txt)
    (hF : FirstHyphen s true (zs.length + 2) z0 z1 hy) (hJ : Joint s.allowMz z0 z1)
    (hen : ∃ z ∈ z1 :: zs, z.count s = 2) (hend : ∃ l, txt.getLast? = some l ∧ Consonant l) :
    Represents .linked s (v0 :: es).length 0 (v0 :: es) (z0 :: z1 :: zs) ∧ Legal s true (z0 :: z1 :: zs) hy ∧
      (∀ v ∈ v0 :: es, Spelled v ∧ v.length < 10 ^ 90) := by
  have hle := all2_length hz.rep
  refine ⟨?_, ⟨⟨z0, z1, zs, rfl, hF⟩, ?_, by simp, by simp, ?_, ?_⟩, ?_⟩
  · refine .cons hU ?_ (represents_written hz.rep (by simpa using hz.written) (by omega) (by rw [← hle, List.length_cons]; omega))
    have : (0 + 1 == (v0 :: es).length) = false := by
      rw [List.length_cons, hle]
      simp
    rw [this]
    exact hw
  · intro y w hb
    rcases beside_cons.1 hb with ⟨rfl, rfl⟩ | hb
    · exact hJ
    · exact hz.joints y w hb
  · obtain ⟨z, hzm, h2⟩ := hen
    have := counts_two (List.mem_cons_of_mem z0 hzm) h2
    refine .inr (.inr ?_)
    split <;> omega
  · obtain ⟨l, hl, hv⟩ := hend
    refine ⟨l, ?_, by simpa using hv⟩
    rw [wordOf, hz.text, List.getLast?_append, hl]
    rfl
  · intro x hx
    rcases List.mem_cons.1 hx with rfl | hx
    · exact hsp
    · exact all2_spelled hz.rep x hx

theorem joinParts_getLast {r : YPart} (hne : r.text ≠ []) : ∀ {w : List YPart}, (joinParts (w ++ [r])).getLast? = r.text.getLast?
  | [] => by simp [joinParts]
  | [a] => by
    simp only [List.cons_append, List.nil_append, joinParts]
    rw [List.getLast?_append]
    cases hh : r.text.getLast? with
    | none => rw [List.getLast?_eq_none_iff] at hh; exact absurd hh hne
    | some => rfl
  | a :: b :: w => by
    have := joinParts_getLast hne (w := b :: w)
    simp only [List.cons_append] at this ⊢
    rw [joinParts, List.getLast?_append, this]
    cases hh : r.text.getLast? with
    | none => rw [List.getLast?_eq_none_iff] at hh; exact absurd hh hne
    | some => rfl

/-- There is no hyphen behind the first rafsi of a cmevla. -/
theorem cmevla_first {s : Settings} {n : Nat} {x : Str} {k : Kind} {z1 : Slot} (hr : Rafsi s.allowMz x) : FirstHyphen s true n ⟨x, k, x⟩ z1 [] := by
  obtain ⟨l, hl, hlv⟩ := rafsi_lastLetter hr
  refine .inr ⟨?_, ?_, ?_⟩
  · show x.getLast? ≠ _
    rw [hl]
    intro h
    cases h
    exact absurd hlv (by decide)
  · rintro ⟨-, h⟩
    simp at h
  · rw [if_neg]
    rintro ⟨-, h, -⟩
    cases h

/-- A cmevla for the components of an extended cmevla. -/
theorem again_cmevla {s : Settings} {p q : YPart} {v : List YPart} {vs : List Str} (hE : ExtendedCmevla s (p :: q :: v))
    (hS : PartsShown s true (p :: q :: v) vs) (hexp : s.expRafsi = false) (hlen : ∀ r ∈ p :: q :: v, r.core.length + 2 < 10 ^ 90)
    (hg : ∀ r ∈ p :: q :: v, r.lead = true → ¬ Onglide r.core)
    (hfall : p.pieces = [p.core] → VowelRafsi p.core → p.trail = true → s.yHyphens = .standard → q.lead = false → ∃ x, q.pieces.head? = some x ∧ Rafsi s.allowMz x) :
    ∃ zs hy, Represents .linked s vs.length 0 vs zs ∧ Legal s true zs hy ∧
      zs.map Slot.rafsi = ((p :: q :: v).map YPart.pieces).flatten.filter (fun x => ¬ Hyphen x) ∧
      (∀ v ∈ vs, Spelled v ∧ v.length < 10 ^ 90) ∧ letterWeight (wordOf zs hy) ≤ letterWeight (joinParts (p :: q :: v)) ∧
      (glueCount ((p :: q :: v).map YPart.pieces).flatten = 0 →
        (p.pieces = [p.core] → VowelRafsi p.core → p.trail = true → s.yHyphens = .standard → q.lead = true) →
        wordOf zs hy = joinParts (p :: q :: v)) := by
  have hP : PartOk s true true false q.lead (ClusterBefore s [] p) p := by simpa using hE.parts [] p (q :: v) rfl
  have hlead : p.lead = false := by
    cases hl : p.lead with
    | false => rfl
    | true => have := (hP.lead hl).1; cases this
  cases hS with
  | @cons _ _ e es h1 h2 =>
  have hgoal : ∀ u r t, q :: v = u ++ r :: t → (∃ nl cl, PartOk s true false false nl cl r) ∧ r.core.length + 2 < 10 ^ 90 ∧ (r.lead = true → ¬ Onglide r.core) := by
    intro u r t e
    have := hE.parts (p :: u) r t (by rw [e]; rfl)
    have hm : r ∈ p :: q :: v := by rw [e]; simp
    exact ⟨⟨_, _, by simpa using this⟩, hlen r hm, hg r hm⟩
  obtain ⟨zs0, txt0, hz0, ht0⟩ := thin_cmevla hexp (v := q :: v) (by simp) hgoal h2
  have hcons : ∃ x c, (((q :: v).map YPart.pieces).flatten.filter (fun x => ¬ Hyphen x)).getLast? = some x ∧ x.getLast? = some c ∧ Consonant c := by
    obtain ⟨w, r, hwr⟩ : ∃ w r, q :: v = w ++ [r] := ⟨_, _, (List.dropLast_concat_getLast (by simp)).symm⟩
    obtain ⟨⟨nl, cl, hR⟩, hl, -⟩ := hgoal w r [] hwr
    obtain ⟨c, hc, hcc⟩ := hE.consonant
    have hjl : (joinParts (p :: q :: v)).getLast? = r.text.getLast? := by
      rw [show p :: q :: v = (p :: w) ++ [r] by rw [hwr]; rfl]
      refine joinParts_getLast ?_
      have hp := partOk_core hR
      unfold YPart.text
      simp [hp]
    rw [hjl] at hc
    have htrail : r.trail = false := by
      cases ht : r.trail with
      | false => rfl
      | true =>
        unfold YPart.text at hc
        rw [ht] at hc
        simp at hc
        subst hc
        exact absurd hcc (by decide)
    have hcore : r.core.getLast? = some c := by
      unfold YPart.text at hc
      rw [htrail] at hc
      have hp := partOk_core hR
      simp only [Bool.false_eq_true, if_false, List.append_nil, List.getLast?_append] at hc
      cases hh : r.core.getLast? with
      | none => rw [List.getLast?_eq_none_iff] at hh; exact absurd hh hp
      | some => rw [hh] at hc; simpa using hc
    obtain ⟨x, hx, hxc⟩ := last_unit (v := w) hR hexp hl hcore
    exact ⟨x, c, by rw [hwr]; exact hx, hxc, hcc⟩
  obtain ⟨zs, txt, l, hz, rfl, hl, hlc, hcount⟩ := hz0.strip hcons
  have hw2 : letterWeight txt ≤ letterWeight (joinParts (q :: v)) := by
    have := thin_weight ht0
    rw [letterWeight_append, letterWeight_append] at this
    omega
  have htn : txt ≠ [] := by rintro rfl; cases hl
  have he2 : glueCount ((q :: v).map YPart.pieces).flatten = 0 → txt = joinParts (q :: v) := by
    intro h0
    rw [h0] at ht0
    exact List.append_cancel_right ht0.eq
  have hhd : txt.head? = (joinParts (q :: v)).head? := by
    have h3 := ht0.head
    have hne : joinParts (q :: v) ≠ [] := by
      intro h0
      rw [h0] at hw2 h3
      obtain ⟨a, t, rfl⟩ := List.exists_cons_of_ne_nil htn
      cases h3
      have h4 := ht0.len
      rw [h0] at h4
      simp at h4
      omega
    obtain ⟨a, t, rfl⟩ := List.exists_cons_of_ne_nil htn
    obtain ⟨b, t', hb⟩ := List.exists_cons_of_ne_nil hne
    rw [hb] at h3 ⊢
    exact h3
  have hglue : glueCount ((p :: q :: v).map YPart.pieces).flatten = glueCount p.pieces + glueCount ((q :: v).map YPart.pieces).flatten := by
    rw [List.map_cons, List.flatten_cons, glue_append]
  have hne := part_pieces hP
  have hend : ∃ l, txt.getLast? = some l ∧ Consonant l := ⟨l, hl, hlc⟩
  by_cases hone : p.pieces = [p.core]
  · have hflt : ∀ {z : Slot}, z.rafsi = p.core → ¬ Hyphen p.core →
        (z :: zs).map Slot.rafsi = ((p :: q :: v).map YPart.pieces).flatten.filter (fun x => ¬ Hyphen x) := by
      intro z hzc hnh
      rw [show ((p :: q :: v).map YPart.pieces).flatten = p.pieces ++ ((q :: v).map YPart.pieces).flatten from rfl, List.filter_append, hone,
        List.map_cons, hz.rafsi, hzc, List.filter_cons_of_pos (by simpa using hnh)]
      rfl
    by_cases hbare : VowelRafsi p.core ∧ p.trail = true ∧ s.yHyphens = .standard ∧ q.lead = false
    · obtain ⟨hb1, hb2, hb3, hb4⟩ := hbare
      obtain ⟨x, hx, hxr⟩ := hfall hone hb1 hb2 hb3 hb4
      obtain ⟨v0, hpr, rfl, hn⟩ : ∃ v0, Rafsi s.allowMz p.core ∧ e = [v0] ∧ Names s v0 p.core := by
        have hkind := hP.kind
        cases hk : p.kind with
        | rafsi =>
          rw [hk] at hkind
          obtain ⟨y, hy, hr⟩ := hkind.reading.first
          rw [hone] at hy
          cases hy
          unfold PartShown at h1
          rw [hk] at h1
          simp only [hone] at h1
          rw [filter_rafsi hr] at h1
          obtain ⟨v0, rfl, hv0⟩ := all2_one h1
          exact ⟨v0, hr, rfl, shown_names hr hv0⟩
        | cvc =>
          exfalso
          rw [hk] at hkind
          obtain ⟨a, b, c, e1, -, -, h3⟩ := tarmi_cvc.1 (pattern_cvc.1 hkind.1)
          obtain ⟨l, hl, hv⟩ := vowelRafsi_ne hb1
          rw [e1] at hl
          cases hl
          exact absurd ((isConsonant_iff _).1 h3) (vowel_not_consonant hv)
        | zihevla =>
          exfalso
          rw [hk] at hkind
          obtain ⟨-, -, -, -, -, -, -, hv, -⟩ := zihevla_unit (last := false) hkind hexp hP.ends hP.noY (hlen p (by simp)) hk (by simpa using h1)
          exact hv hb1
        | exp => rw [hk] at hkind; have := hkind.option; rw [hexp] at this; cases this
      obtain ⟨z1, zs, rfl⟩ := List.exists_cons_of_ne_nil hz.ne
      have hz1 : z1.rafsi = x := by
        have h3 := hz.rafsi
        obtain ⟨y, l', hql⟩ : ∃ y l', q.pieces = y :: l' := by
          cases hq : q.pieces with
          | nil => rw [hq] at hx; cases hx
          | cons y l' => exact ⟨y, l', rfl⟩
        rw [hql] at hx
        cases hx
        rw [List.map_cons, List.map_cons, List.flatten_cons, hql, List.cons_append, filter_rafsi hxr] at h3
        injection h3
      subst hz1
      obtain ⟨g1, hzt, -⟩ := hz.written [] z1 zs rfl
      rw [leading_rafsi hxr, List.nil_append] at hzt
      obtain ⟨hpair, htri⟩ := vowel_joint s.allowMz hb1 z1.rafsi
      obtain ⟨a1, a2, a3⟩ := assemble_cmevla (z0 := ⟨p.core, kindOf p.core, p.core⟩) hn.usable ⟨hn.spelled, hn.short⟩
        ⟨[], by simp [leading_rafsi hpr], by rw [(kind_vowelRafsi hpr).1 hb1]; exact .inl rfl⟩ hz (cmevla_first hpr) (joint_bare hxr ⟨g1, hzt⟩ hpair htri) hcount hend
      refine ⟨_, [], a1, a2, hflt rfl (rafsi_not_hyphen hpr), a3, ?_, ?_⟩
      · rw [wordOf, hz.text, joinParts, YPart.text, hlead, hb2]
        simp only [Bool.false_eq_true, if_false, if_true, List.nil_append, List.append_nil]
        rw [letterWeight_append, letterWeight_append, letterWeight_append, letterWeight_append]
        have h4 : letterWeight s%"'" = 1000 ∧ letterWeight s%"y" = 1100 := by decide
        omega
      · intro _ h3
        rw [h3 hone hb1 hb2 hb3] at hb4
        cases hb4
    · obtain ⟨v0, z, hy, rfl, hU, hsp, hvl, hu, hzc, hw, htx, hl', hnr, hF⟩ := slotted_first (f := (q :: v).isEmpty) hP (by
          intro _ h3 h4 h5
          cases hq : q.lead with
          | true => rfl
          | false => exact absurd ⟨h3, h4, h5, hq⟩ hbare)
        hexp (hlen p (by simp)) hone (by
          intro a b c h1 h2 e
          exact hE.begin a b c _ h1 h2 (by rw [joinParts, e]; rfl)) (by simpa using h1)
      obtain ⟨z1, zs, rfl⟩ := List.exists_cons_of_ne_nil hz.ne
      have hhead : q.lead = true → z1.text.head? = some '\'' := by
        intro hql
        obtain ⟨h, ht', -⟩ := hz.written [] z1 zs rfl
        have hne : z1.text ≠ [] := by
          rw [ht']
          have := unit_ne (hz.unit z1 (by simp))
          simp [this]
        have htt := hz.text
        rw [List.map_cons, List.flatten_cons] at htt
        have h3 : (z1.text ++ (zs.map Slot.text).flatten).head? = z1.text.head? := by
          cases ht : z1.text with
          | nil => exact absurd ht hne
          | cons => rfl
        rw [← h3, htt, hhd]
        cases v with
        | nil => simp [joinParts, YPart.text, hql]
        | cons => simp [joinParts, YPart.text, hql]
      obtain ⟨a1, a2, a3⟩ := assemble_cmevla hU ⟨hsp, hvl⟩ hw hz (hF _ z1 hhead) (joint_y hl') hcount hend
      have hwo : wordOf (z :: z1 :: zs) hy = p.text ++ s%"y" ++ txt := by rw [wordOf, htx, hz.text]
      refine ⟨_, hy, a1, a2, hflt hzc (hzc ▸ unit_not_hyphen hu), a3, ?_, ?_⟩
      · rw [hwo, joinParts, letterWeight_append, letterWeight_append (p.text ++ s%"y")]
        omega
      · intro h0 _
        rw [hwo, joinParts, he2 (by omega)]
  · have hkr : p.kind = .rafsi := Classical.byContradiction fun h => hone (part_single hP h)
    have hkind := hP.kind
    rw [hkr] at hkind
    obtain ⟨x, l, hpl⟩ := List.exists_cons_of_ne_nil hne
    obtain ⟨g, rest, rfl⟩ : ∃ g rest, l = g :: rest := by
      cases l with
      | nil =>
        have := hkind.core
        rw [hpl] at this
        simp at this
        exact absurd (by rw [hpl, this]) hone
      | cons g rest => exact ⟨g, rest, rfl⟩
    obtain ⟨v0, e', z1, zs1, xs, txt1, hy0, rfl, hsv, hxr, hxd, hxk, hz1, hB, hfl, hth, hJ, hcase⟩ :=
      first_many (f := (q :: v).isEmpty) hP (by simpa using h1) hpl
    have hn := shown_names hxr hsv
    have hzz := hz1.append hz
    obtain ⟨a1, a2, a3⟩ := assemble_cmevla (z0 := ⟨x, kindOf x, x⟩) hn.usable ⟨hn.spelled, hn.short⟩
      ⟨[], by simp [leading_rafsi hxr], by rcases hxk with h | h | h <;> simp [h, Trailing]⟩ hzz (cmevla_first hxr) hJ (by
        obtain ⟨z, hzm, h2⟩ := hcount
        exact ⟨z, List.mem_append_right (z1 :: zs1) hzm, h2⟩) (by
        obtain ⟨l, hl, hv⟩ := hend
        exact ⟨l, by rw [List.getLast?_append, hl]; rfl, hv⟩)
    have hwo : wordOf (⟨x, kindOf x, x⟩ :: (z1 :: zs1 ++ zs)) [] = x ++ txt1 ++ txt := by
      rw [wordOf, hzz.text]
      simp
    refine ⟨⟨x, kindOf x, x⟩ :: (z1 :: zs1 ++ zs), [], a1, a2, ?_, a3, ?_, ?_⟩
    · rw [show ((p :: q :: v).map YPart.pieces).flatten = p.pieces ++ ((q :: v).map YPart.pieces).flatten from rfl, List.filter_append, hfl,
        List.map_cons, hzz.rafsi]
      rfl
    · have h3 := thin_weight hth
      have h4 : 0 ≤ letterWeight hy0 := by
        rcases hcase with ⟨rfl, -⟩ | ⟨-, -, -, rfl⟩
        · decide
        · split <;> decide
      rw [letterWeight_append, letterWeight_append] at h3
      rw [hwo, joinParts, letterWeight_append, letterWeight_append, letterWeight_append (p.text ++ s%"y")]
      omega
    · intro h0 _
      rw [hwo, joinParts, he2 (by omega)]
      have h3 : glueCount p.pieces = 0 := by omega
      have hg0 : hy0 = [] := by
        rcases hcase with ⟨rfl, -⟩ | ⟨-, -, hgh, rfl⟩
        · rfl
        · exfalso
          refine glue_pos (x := g) (xs := p.pieces) (by rw [hpl]; simp) ?_ h3
          rcases part_pieces_kind hkind hP.noY g (by rw [hpl]; simp) with h | h
          · exact absurd hgh (rafsi_not_hyphen h.1)
          · exact h
      subst hg0
      have h4 : glueCount rest = 0 := by
        have h5 : glueCount p.pieces = glueCount [x, g] + glueCount rest := by rw [hpl, ← glue_append]; rfl
        omega
      rw [h4] at hth
      rw [List.append_nil] at hth
      rw [hth.eq]

end Jvotci
