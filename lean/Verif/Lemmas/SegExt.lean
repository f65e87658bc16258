import Verif.Lemmas.Segs

/-!
# Helper lemmas: the parts of a made word are those of an extended lujvo
-/

namespace Jvotci

open Spec

theorem vowelRafsi_ne {p : Str} (h : VowelRafsi p) : ∃ c, p.getLast? = some c ∧ Vowel c := by
  obtain ⟨c, a, b, -, hb, rfl | rfl⟩ := h <;> exact ⟨b, rfl, hb⟩

/-- Each part is of one of these kinds. -/
theorem pseg_kind {s : Settings} {f last : Bool} {p : YPart} (h : PSeg s f last p) :
    (p.kind = .cvc ∧ last = false ∧ ConsonantInitial p.core) ∨ p.kind = .zihevla ∨
      (p.kind = .rafsi ∧ ConsonantInitial p.core ∧ p.pieces ≠ [] ∧ ((∀ x ∈ p.pieces, VowelRafsi x) ∨ p.Cluster)) := by
  cases h with
  | cvc h => exact .inl ⟨rfl, rfl, rafsi_initial h⟩
  | @rafsi _ t x ps h e =>
    refine .inr (.inr ⟨rfl, ?_, ?_, ?_⟩)
    · subst e; exact reading_head h
    · intro e'
      obtain ⟨p, hp, -⟩ := h.first
      simp only at e'
      subst e'
      cases hp
    · by_cases hv : ∀ x ∈ ps, VowelRafsi x
      · exact .inl hv
      · right
        refine .inr ⟨rfl, ?_⟩
        refine Classical.byContradiction fun hn => hv ?_
        intro x hx
        refine Classical.byContradiction fun hnv => hn ⟨x, hx, hnv⟩
  | whole => exact .inr (.inl rfl)
  | cut => exact .inr (.inl rfl)

theorem partsCluster_append {s : Settings} {u v w : List YPart} (h : PartsCluster s v) : PartsCluster s (u ++ v ++ w) := by
  rcases h with ⟨p, hp, hc⟩ | ⟨u', p, q, v', rfl, h⟩
  · exact .inl ⟨p, by simp [hp], hc⟩
  · exact .inr ⟨u ++ u', p, q, v' ++ w, by simp, h⟩

/-- After a CVC part there is a cluster, unless all that follows is CVC. -/
theorem cvc_cluster {s : Settings} : ∀ {u : List YPart} {p : YPart}, (∀ q ∈ u, q.kind = .cvc ∨ q.kind = .zihevla ∨ ConsonantInitial q.core) →
    p.kind = .cvc → PartsCluster s (p :: u) ∨ ∃ w q, p :: u = w ++ [q] ∧ q.kind = .cvc
  | [], p, _, hp => .inr ⟨[], p, rfl, hp⟩
  | q :: u, p, h, hp => by
    by_cases hq : q.kind = .cvc
    · rcases cvc_cluster (fun r hr => h r (List.mem_cons_of_mem _ hr)) hq with h1 | ⟨w, r, e, hr⟩
      · left
        have := partsCluster_append (u := [p]) (w := []) h1
        simpa using this
      · exact .inr ⟨p :: w, r, by rw [e]; rfl, hr⟩
    · rcases h q (by simp) with h1 | h1 | h1
      · exact absurd h1 hq
      · exact .inl (.inl ⟨q, by simp, .inl h1⟩)
      · exact .inl (.inr ⟨[], p, q, u, rfl, hp, hq, .inl h1⟩)

theorem pseg_lead {s : Settings} {f last : Bool} {p : YPart} (h : PSeg s f last p) (hl : p.lead = true) : p.kind = .zihevla ∧ f = false := by
  cases h with
  | cvc => cases hl
  | rafsi => cases hl
  | whole => simp at hl; exact ⟨rfl, hl.1⟩
  | cut => simp at hl; exact ⟨rfl, hl.1⟩

/-- The last vowel of a stem of rafsi: if the result is a lujvo, it ends in a gismu. -/
theorem stem_ok {s : Settings} {ps : List Str} (h : Reading s.yHyphens s.allowMz ps) : StemOk s ps.flatten := by
  rintro ⟨c, hc, hcc⟩ qs hq e
  obtain ⟨p, hp, hpr⟩ := h.last
  obtain ⟨u, rfl⟩ := List.getLast?_eq_some_iff.1 hp
  obtain ⟨q, hq', hqr⟩ := hq.reading.last
  obtain ⟨w, rfl⟩ := List.getLast?_eq_some_iff.1 hq'
  have hpl : p.getLast? = some c := by
    rw [← hc, List.flatten_append, getLast?_append_ne _ (by simpa using rafsi_ne hpr)]
    simp
  have e' : w.flatten ++ q = u.flatten ++ (p ++ s%"a") := by simpa using e
  have key : ∀ g, Gismu s.allowMz g → p ++ s%"a" = g → ∃ x g, Gismu s.allowMz g ∧ (u ++ [p]).flatten ++ s%"a" = x ++ g :=
    fun g hg e => ⟨u.flatten, g, hg, by rw [← e]; simp⟩
  -- the last four letters on both sides
  cases hpr with
  | cvv _ _ hv => cases hpl; exact absurd hcc (vowel_not_consonant hv)
  | cvhv _ _ hv => cases hpl; exact absurd hcc (vowel_not_consonant hv)
  | ccv _ hv => cases hpl; exact absurd hcc (vowel_not_consonant hv)
  | cvcc h1 h2 h3 => exact key _ (.cvccv h1 h2 h3 (by decide : Vowel 'a')) rfl
  | ccvc h1 h2 h3 => exact key _ (.ccvcv h1 h2 h3 (by decide : Vowel 'a')) rfl
  | gismu hg =>
    obtain ⟨d, hd, hdv⟩ := gismu_vowel hg
    rw [hpl] at hd
    cases hd
    exact absurd hcc (vowel_not_consonant hdv)
  | @cvc p0 p1 p2 h1 h2 h3 =>
    have er := congrArg List.reverse e'
    simp only [List.reverse_append, List.reverse_cons, List.reverse_nil, List.nil_append, List.cons_append] at er
    cases hqr with
    | cvv k1 k2 k3 => simp at er; rw [er.2.1] at k2; exact absurd h3 (vowel_not_consonant k2)
    | cvhv k1 k2 k3 => simp at er; rw [← er.2.1] at h3; exact absurd h3 (by decide)
    | cvc k1 k2 k3 => simp at er; rw [er.1] at k3; exact absurd k3 (by decide)
    | ccv k1 k2 => simp at er; have := (initial_consonants k1).1; rw [er.2.2.1] at this; exact absurd this (vowel_not_consonant h2)
    | cvcc k1 k2 k3 => simp at er; have := k3.2.1; rw [er.1] at this; exact absurd this (by decide)
    | ccvc k1 k2 k3 => simp at er; rw [er.1] at k3; exact absurd k3 (by decide)
    | gismu k => exact ⟨w.flatten, q, k, by rw [← e]; simp⟩

/-- A part of a made word is a part of an extended lujvo. -/
theorem pseg_ok {s : Settings} {cm f last nl : Bool} {C : Prop} {p : YPart} (h : PSeg s f last p)
    (hfo : cm = false → p.kind = .rafsi → VowelRafsi p.core → p.trail = true → s.yHyphens = .standard → nl = false → C)
    (htos : f = true → p.kind = .rafsi → ¬ FallsOff s p.core) : PartOk s cm f last nl C p := by
  have hnoY := pseg_noY h
  have hends := pseg_ends h
  have htrail := fun ht => pseg_trail h ht
  have hlead : p.lead = true → f = false ∧ ∃ x t syls, Run Vowel p.core [] x t ∧ syls.flatten = x ∧ VowelRun syls ∧
      ∀ h, syls.head? = some h → ¬ Glided h := by
    intro hl
    cases h with
    | cvc => cases hl
    | rafsi => cases hl
    | whole h =>
      simp at hl
      refine ⟨hl.1, sounds_lead (z := []) (by simpa using h.form.sounds) (.inl rfl) hl.2⟩
    | @cut x h =>
      simp at hl
      refine ⟨hl.1, sounds_lead (z := s%"a") h.whole.form.sounds (.inr ?_) hl.2⟩
      obtain ⟨a, b, ⟨u, t, e⟩, ha, hb⟩ := form_pair h.whole.form
      refine ⟨a, ?_, fun hv => vowel_not_consonant hv ha⟩
      have hm : a ∈ x ++ s%"a" := by rw [e]; simp
      rcases List.mem_append.1 hm with hm | hm
      · exact hm
      · simp at hm
        subst hm
        exact absurd ha (by decide)
  have hstart : p.lead = false → if f then VowelInitial p.core ∨ ConsonantInitial p.core else ConsonantInitial p.core ∨ Onglide p.core := by
    intro hl
    have first : ∀ {x : Str}, Sounds s.allowMz x → x ≠ [] → VowelInitial x ∨ ConsonantInitial x := by
      intro x hx hne
      obtain ⟨c, hc, h⟩ := sounds_first hx hne
      cases x with
      | nil => cases hc
      | cons a x => cases hc; exact h
    have cons : ConsonantInitial p.core → if f then VowelInitial p.core ∨ ConsonantInitial p.core else ConsonantInitial p.core ∨ Onglide p.core := by
      intro hc
      split
      · exact .inr hc
      · exact .inl hc
    have zih : ∀ {x : Str}, (VowelInitial x ∨ ConsonantInitial x) → (!f && leadB x) = false →
        if f then VowelInitial x ∨ ConsonantInitial x else ConsonantInitial x ∨ Onglide x := by
      intro x hx hxl
      split
      · exact hx
      · rename_i hf
        simp only [hf, Bool.not_false, Bool.true_and] at hxl
        have hxl := of_decide_eq_false hxl
        rcases hx with hx | hx
        · right
          exact Classical.byContradiction fun ho => hxl ⟨hx, ho⟩
        · exact .inl hx
    cases h with
    | cvc h => exact cons (rafsi_initial h)
    | rafsi h e => exact cons (by subst e; exact reading_head h)
    | whole h =>
      refine zih (first h.form.sounds ?_) hl
      rintro rfl
      have := form_long h.form
      simp at this
    | cut h =>
      refine zih ?_ hl
      have h1 := first h.whole.form.sounds (by simp)
      have hne := zcut_ne h
      rename_i x
      cases x with
      | nil => exact absurd rfl hne
      | cons a x => exact h1
  refine ⟨hlead, hstart, hnoY, hends, htrail, ?_⟩
  cases h with
  | cvc h hk => exact ⟨pattern_cvc.2 (kind_cvc hk), rfl⟩
  | @rafsi _ t x ps h e hy hn ht h1 h2 =>
    subst e
    refine ⟨h, rfl, hn, ?_, stem_ok h, fun hcm hv ht hs hnl => hfo hcm rfl hv ht hs hnl, fun hf => htos hf rfl⟩
    intro ht hl
    obtain ⟨p, hp, hk⟩ := h1 ht hl
    obtain ⟨p', hp', hpr⟩ := h.last
    rw [hp] at hp'
    cases hp'
    obtain ⟨u, rfl⟩ := List.getLast?_eq_some_iff.1 hp
    obtain ⟨l, hl, hc, -⟩ := rk_last (rafsi_rk hpr)
    refine ⟨l, ?_, hc hk⟩
    simp only [List.flatten_append]
    rw [getLast?_append_ne _ (by simpa using rafsi_ne hpr)]
    simpa using hl
  | @whole _ x h =>
    have hw : YPart.whole ⟨!f && leadB x, x, !last, .zihevla, [x]⟩ last = x := by
      unfold YPart.whole
      rw [if_neg]
      simp
    have hv := h.form.vowel
    refine ⟨rfl, fun _ => h.unreadable, ?_, ?_, ?_, ?_, ?_, ?_, ?_, ?_⟩
    · rintro ⟨c, hc, hcc⟩
      obtain ⟨d, hd, hdv⟩ := hv
      rw [hc] at hd
      cases hd
      exact absurd hcc (vowel_not_consonant hdv)
    · rw [hw]; exact h.form.sounds
    · rw [hw]; exact hv
    · rw [hw]; exact h.form.cluster
    · rw [hw]; exact fun _ => h.form.syllables
    · rw [hw]; exact fun _ _ _ => h.together
    · rw [hw]; exact h.slinkuhi
    · intro h1 h2
      simp [h2] at h1
  | @cut x h =>
    have hw : YPart.whole ⟨!f && leadB x, x, false, .zihevla, [x]⟩ false = x ++ s%"a" := by
      unfold YPart.whole
      rw [if_pos ⟨rfl, rfl⟩]
    refine ⟨rfl, ?_, ?_, ?_, ?_, ?_, ?_, ?_, ?_, fun _ _ => h.whole.unreadable⟩
    · rintro (h1 | h1 | h1)
      · cases h1
      · cases h1
      · exact h.unreadable h1
    · rintro - qs hq e
      exact absurd e (h.whole.unreadable qs hq.reading)
    · rw [hw]; exact h.whole.form.sounds
    · rw [hw]; exact h.whole.form.vowel
    · rw [hw]; exact h.whole.form.cluster
    · rw [hw]; exact fun _ => h.whole.form.syllables
    · rw [hw]; exact fun _ _ _ => h.whole.together
    · rw [hw]; exact h.whole.slinkuhi

/-- The first part, if it consists of CVV and CV'V only, is one of them, and if y' does not follow, r and n are not allowed. -/
def FirstVV (s : Settings) : List YPart → Prop
  | p :: q :: _ => p.kind = .rafsi → (∀ x ∈ p.pieces, VowelRafsi x) → s.yHyphens = .standard → q.lead = true
  | _ => True

/-- What comes before a part that has no apostrophe before it contains a cluster or ends in CVC. -/
theorem cluster_before {s : Settings} {ps u v : List YPart} {p : YPart} (hP : Parts s true ps) (hvv : FirstVV s ps)
    (hs : s.yHyphens = .standard) (e : ps = u ++ p :: v) (hu : u ≠ []) (hl : p.lead = false) :
    PartsCluster s u ∨ ∃ w q, u = w ++ [q] ∧ q.kind = .cvc := by
  have hall : ∀ q ∈ ps, q.kind = .cvc ∨ q.kind = .zihevla ∨ ConsonantInitial q.core := by
    intro q hq
    obtain ⟨f', l', hq⟩ := parts_mem hP hq
    rcases pseg_kind hq with h | h | h
    · exact .inl h.1
    · exact .inr (.inl h)
    · exact .inr (.inr h.2.1)
  subst e
  match u, hu with
  | p0 :: u, _ =>
    obtain ⟨f', l', hp0⟩ := parts_mem hP (p := p0) (by simp)
    rcases pseg_kind hp0 with h | h | ⟨h1, -, -, h2⟩
    · exact cvc_cluster (fun q hq => hall q (by simp [hq])) h.1
    · exact .inl (.inl ⟨p0, by simp, .inl h⟩)
    · rcases h2 with h2 | h2
      · cases u with
        | nil =>
          have := hvv h1 h2 hs
          rw [hl] at this
          cases this
        | cons p1 u =>
          have := hvv h1 h2 hs
          obtain ⟨f', l', hp1⟩ := parts_mem hP (p := p1) (by simp)
          exact .inl (.inl ⟨p1, by simp, .inl (pseg_lead hp1 this).1⟩)
      · exact .inl (.inl ⟨p0, by simp, h2⟩)

theorem parts_last {s : Settings} : ∀ {ps : List YPart} {f : Bool}, Parts s f ps → ∃ c, (joinParts ps).getLast? = some c ∧ Vowel c := by
  intro ps f hP
  induction hP with
  | @one f p h =>
    have ht : p.trail = false := by
      cases ht : p.trail with
      | false => rfl
      | true => have := (pseg_trail h ht).1; cases this
    have hv : ∃ c, p.core.getLast? = some c ∧ Vowel c := by
      cases h with
      | rafsi _ _ _ _ _ _ h => exact h (.inr rfl)
      | whole h => exact h.form.vowel
    obtain ⟨c, hc, hv⟩ := hv
    refine ⟨c, ?_, hv⟩
    have hne : p.core ≠ [] := by intro e; rw [e] at hc; cases hc
    simp only [joinParts, YPart.text, ht, Bool.false_eq_true, if_false, List.append_nil]
    rw [getLast?_append_ne _ hne, hc]
  | cons h _ ih =>
    obtain ⟨c, hc, hv⟩ := ih
    refine ⟨c, ?_, hv⟩
    rw [joinParts, getLast?_append_ne _ (by intro e; rw [e] at hc; cases hc), hc]

/-- The parts of a made word are those of an extended lujvo. -/
theorem extended_of_parts {s : Settings} {ps : List YPart} (hP : Parts s true ps) (h2 : 2 ≤ ps.length) (hvv : FirstVV s ps)
    (htos : ∀ p v, ps = p :: v → p.kind = .rafsi → ¬ FallsOff s p.core)
    (hen : (∀ p ∈ ps, p.kind = .rafsi ∧ ∀ x ∈ p.pieces, VowelRafsi x) → s.consonants ≠ .cluster)
    (hb : ∀ a b c v, InitialPair a b → Vowel c → joinParts ps ≠ a :: b :: c :: '\'' :: 'y' :: v)
    (hnl : ∀ qs, LujvoPieces s qs → qs.flatten ≠ joinParts ps)
    (hsl : ConsonantInitial (joinParts ps) → ∀ qs, LujvoPieces { yHyphens := s.yHyphens, allowMz := s.allowMz } qs →
      qs.flatten ≠ s%"to" ++ joinParts ps) : ExtendedLujvo s ps := by
  refine ⟨h2, ?_, ?_, parts_last hP, hb, hnl, hsl⟩
  · intro u p v e
    have hp : PSeg s u.isEmpty v.isEmpty p := by
      have := parts_split (e ▸ hP)
      simpa using this
    refine pseg_ok hp ?_ ?_
    · intro _ hk hv ht hs hn
      have hpl : p.lead = false := by
        cases hl : p.lead with
        | false => rfl
        | true => have := (pseg_lead hp hl).1; rw [hk] at this; cases this
      have hci : ConsonantInitial p.core := by
        rcases pseg_kind hp with h | h | h
        · exact h.2.2
        · rw [hk] at h; cases h
        · exact h.2.1
      cases u with
      | nil =>
        exfalso
        cases v with
        | nil =>
          rw [e] at h2
          simp at h2
        | cons q v =>
          have hv' : ∀ x ∈ p.pieces, VowelRafsi x := by
            intro x hx
            cases hp with
            | cvc => cases hk
            | @rafsi _ t y qs h e' _ hn' =>
              have hlen : y.length ≤ 4 := by
                obtain ⟨c, a, b, -, -, rfl | rfl⟩ := hv <;> simp
              obtain ⟨q', e2, hqr⟩ := reading_short_single h (by rw [e']; omega)
              subst e2
              simp at hx e'
              subst hx e'
              exact hv
            | whole => cases hk
            | cut => cases hk
          subst e
          have := hvv hk hv' hs
          simp [this] at hn
      | cons p0 u =>
        rcases cluster_before hP hvv hs e (by simp) hpl with h | ⟨w, q, e, hq⟩
        · exact .inl h
        · exact .inr ⟨⟨w, q, e, hq⟩, .inl hci⟩
    · intro hf hk
      cases u with
      | nil => exact htos p v e hk
      | cons _ _ => cases hf
  · refine Classical.byContradiction fun hn => ?_
    rw [not_or] at hn
    obtain ⟨hnc, hn⟩ := hn
    have hcv : ∀ u q v, ps = u ++ q :: v → q.kind ≠ .cvc := by
      intro u q v e hk
      have hv : ∀ r ∈ v, r.kind = .cvc ∨ r.kind = .zihevla ∨ ConsonantInitial r.core := by
        intro r hr
        obtain ⟨f', l', hr⟩ := parts_mem hP (p := r) (by rw [e]; simp [hr])
        rcases pseg_kind hr with h | h | h
        · exact .inl h.1
        · exact .inr (.inl h)
        · exact .inr (.inr h.2.1)
      rcases cvc_cluster (s := s) hv hk with h | ⟨w, r, e2, hr⟩
      · refine hnc ?_
        have := partsCluster_append (u := u) (w := []) h
        rw [e]
        simpa using this
      · have : PSeg s (true && (u ++ w).isEmpty) true r := by
          have := parts_split (u := u ++ w) (p := r) (v := []) (f := true) (s := s) (by rw [List.append_assoc, ← e2, ← e]; exact hP)
          simpa using this
        rcases pseg_kind this with h | h | h
        · cases h.2.1
        · rw [hr] at h; cases h
        · rw [hr] at h; cases h.1
    have hall : ∀ p ∈ ps, p.kind = .rafsi ∧ ConsonantInitial p.core ∧ p.pieces ≠ [] ∧ ∀ x ∈ p.pieces, VowelRafsi x := by
      intro p hp
      obtain ⟨f', l', hp'⟩ := parts_mem hP hp
      rcases pseg_kind hp' with h | h | ⟨h1, h2, h3, h4⟩
      · obtain ⟨u, v, e⟩ := List.append_of_mem hp
        exact absurd h.1 (hcv u p v e)
      · exact absurd (.inl ⟨p, hp, .inl h⟩) hnc
      · rcases h4 with h4 | h4
        · exact ⟨h1, h2, h3, h4⟩
        · exact absurd (.inl ⟨p, hp, h4⟩) hnc
    refine hn ⟨hen (fun p hp => ⟨(hall p hp).1, (hall p hp).2.2.2⟩), ?_, ?_⟩
    · have hsum : ∀ {qs : List YPart}, (∀ p ∈ qs, p.kind = .rafsi ∧ p.pieces ≠ []) → qs.length ≤ (qs.map (YPart.count s)).sum := by
        intro qs
        induction qs with
        | nil => intro _; simp
        | cons q qs ih =>
          intro h
          have h1 := ih (fun p hp => h p (List.mem_cons_of_mem _ hp))
          have h2 : 1 ≤ q.count s := by
            have := h q (by simp)
            unfold YPart.count
            rw [this.1]
            exact List.length_pos_iff.2 this.2
          simp only [List.map_cons, List.sum_cons, List.length_cons]
          omega
      have := hsum (fun p hp => ⟨(hall p hp).1, (hall p hp).2.2.1⟩)
      split <;> omega
    · match ps, h2, hall with
      | p :: q :: v, _, hall =>
        have := hall q (by simp)
        exact ⟨q, by simp, (by rw [this.1]; intro e; cases e), .inl this.2.1⟩

end Jvotci
