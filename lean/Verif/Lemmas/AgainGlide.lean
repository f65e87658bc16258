import Verif.Lemmas.AgainMade

/-!
# On-glides behind y'

A zi'evla that begins with a vowel and an on-glide falls apart before the on-glide.
-/

namespace Jvotci

open Spec

theorem lead_glide {s : Settings} {v x t : Str} {syls : List Str} (hW : ZWhole s v) (hmz : s.allowMz = false) (hlen : v.length < 10 ^ 95)
    (hrun : Run Vowel v [] x t) (hfl : syls.flatten = x) (hvr : VowelRun syls) (hh : ∀ h, syls.head? = some h → ¬ Glided h) : ¬ Onglide v := by
  intro ho
  have hF := hW.form
  rw [hmz] at hF
  have hN : NoBrivlaLeft s.yHyphens v := hW.together
  clear hW
  obtain ⟨g, d, r, rfl, hg, hd⟩ := onglide_vowel ho
  have hgv := glide_vowel hg
  have hlet := hF.sounds.letters
  have hrv : VowelInitial (d :: r) := hd
  obtain ⟨r', t', hx, ht, hr'⟩ : ∃ r' t', x = g :: d :: r' ∧ r = r' ++ t' ∧ t = t' := by
    have h1 := hrun.eq
    simp only [List.nil_append] at h1
    match x, hrun.some, h1, hrun.after with
    | [a], _, h1, hp =>
      simp only [List.cons_append, List.nil_append, List.cons.injEq] at h1
      exact absurd hd (hp d (by rw [← h1.2]; rfl))
    | a :: b :: x, _, h1, _ =>
      simp only [List.cons_append, List.cons.injEq] at h1
      exact ⟨x, t, by rw [h1.1, h1.2.1], h1.2.2, rfl⟩
  subst hx hr'
  obtain ⟨l, rfl, hl⟩ : ∃ l, syls = [g] :: l ∧ l ≠ [] := by
    cases syls with
    | nil => simp at hfl
    | cons s l =>
      have hnu : Nucleus s := (vowelRun_head hvr).resolve_right (hh s rfl)
      rcases nucleus_shape hnu with ⟨v, rfl, -⟩ | ⟨v, g', rfl, -, hv, -⟩
      · simp at hfl
        obtain ⟨rfl, hfl⟩ := hfl
        exact ⟨l, rfl, by rintro rfl; simp at hfl⟩
      · simp at hfl
        rw [hfl.1] at hv
        exact absurd hg hv
  obtain ⟨hvr', hgl⟩ := vowelRun_tail hvr hl
  have hfl' : l.flatten = d :: r' := by simpa using hfl
  have hrun2 : Run Vowel (d :: r) [] (d :: r') t := by
    refine ⟨by rw [ht]; rfl, by simp, fun c hc => hrun.all c (List.mem_cons_of_mem _ hc), by simp, hrun.after⟩
  have hS : Sounds false (d :: r) := by
    refine sounds_drop hF.sounds hd fun y t2 hr => ⟨l, ?_, hvr'⟩
    rw [hfl']
    have e : (d :: r') ++ t = y ++ t2 := by
      have h1 := hr.eq
      have h2 := hrun2.eq
      simp only [List.nil_append] at h1 h2
      rw [← h1, ← h2]
    rcases List.append_eq_append_iff.1 e with ⟨a, h1, h2⟩ | ⟨a, h1, h2⟩
    · cases a with
      | nil => simpa using h1.symm
      | cons c a => exact absurd (hr.all c (by rw [h1]; simp)) (hrun2.after c (by rw [h2]; rfl))
    · cases a with
      | nil => simpa using h1
      | cons c a => exact absurd (hrun2.all c (by rw [h1]; simp)) (hr.after c (by rw [h2]; rfl))
  have hon : Onglide (d :: r) := by
    cases l with
    | nil => exact absurd rfl hl
    | cons s l =>
      obtain ⟨g', s, hg', hs', rfl⟩ := hgl s rfl
      obtain ⟨c, s, rfl⟩ := List.exists_cons_of_ne_nil (nucleus_ne hs')
      have hcv := nucleus_vowels hs' c (by simp)
      simp only [List.flatten_cons, List.cons_append, List.cons.injEq] at hfl'
      obtain ⟨rfl, hfl'⟩ := hfl'
      rw [ht, ← hfl']
      exact ⟨hg', hcv⟩
  obtain ⟨u', ch, t', hr, hcl, hfew⟩ := hF.cluster
  obtain ⟨z, hz1, hz2⟩ := hF.vowel
  obtain ⟨u', rfl⟩ : ∃ u2, u' = g :: d :: u2 := by
    have h1 := hr.eq
    obtain ⟨c, ch, rfl⟩ := List.exists_cons_of_ne_nil hr.some
    have hc := hr.all c (by simp)
    match u', h1 with
    | [], h1 => simp at h1; rw [← h1.1] at hc; exact absurd hc (vowel_not_consonant hgv)
    | [_], h1 => simp at h1; rw [← h1.2.1] at hc; exact absurd hc (vowel_not_consonant hd)
    | p :: q :: u2, h1 => simp at h1; exact ⟨u2, by rw [← h1.1, ← h1.2.1]⟩
  have hcr : Run Consonant (d :: r) (d :: u') ch t' := by
    refine ⟨?_, hr.some, hr.all, ?_, hr.after⟩
    · have := hr.eq
      simpa using this
    · intro c hc
      exact hr.before c (by simpa using hc)
  have hfew' : ((d :: u').filter (fun c => Consonant c)).length ≤ 1 := by
    have : ¬ Consonant g := vowel_not_consonant hgv
    simpa [List.filter_cons, this] using hfew
  have hlast : ∃ c, (d :: r).getLast? = some c ∧ Vowel c := ⟨z, by simpa using hz1, hz2⟩
  have hadj : ∃ a b, Adjacent (d :: r) a b ∧ Consonant a ∧ Consonant b := by
    match ch, hcl, hcr with
    | a :: b :: c, _, hr0 => exact ⟨a, b, ⟨d :: u', c ++ t', by rw [hr0.eq]; simp⟩, hr0.all a (by simp), hr0.all b (by simp)⟩
  obtain ⟨st, hst⟩ := zihScan_of hS (.inl hadj) (fun u ch t hr _ ha => few_first ⟨_, _, _, hcr, hcl, hfew'⟩ hr ha) (fuel := (d :: r).length + 1) (rest := d :: r) (pre := []) (st := {})
    (by omega) rfl rfl rfl (by rintro - a b ⟨p, q, h⟩; simp at h) (by simp) (by simp)
  obtain ⟨m, hm0, -⟩ := zihScan_syllables (pre := []) hst rfl rfl
  simp only [if_true] at hm0
  have hm2 : 2 ≤ m := by
    obtain ⟨c, ch, rfl⟩ := List.exists_cons_of_ne_nil hr.some
    have hc := hr.all c (by simp)
    obtain ⟨t2, ht2⟩ : ∃ t2, t' = t2 ++ [z] := by
      rcases List.eq_nil_or_concat t' with rfl | ⟨t2, b, rfl⟩
      · obtain ⟨z', h1, h2⟩ := hlast
        have h3 := hcr.eq
        rw [List.append_nil] at h3
        rw [h3, getLast?_append_ne _ (by simp)] at h1
        exact absurd (hr.all z' (List.mem_of_getLast? h1)) (vowel_not_consonant h2)
      · refine ⟨t2, ?_⟩
        have h3 := hr.eq
        rw [h3, getLast?_append_ne _ (by simp)] at hz1
        simp at hz1
        rw [hz1]
        simp
    refine syll_two hm0 (x := []) (a := d) (y := u' ++ c :: ch ++ t2) (d := z) (z := []) (c := c) ?_ hd hz2 (by simp) (consonant_not_vowel hc)
    rw [hcr.eq, ht2]; simp
  have hform : ZihevlaForm false (d :: r) := ⟨hS, hlast, ⟨d :: u', ch, t', hcr, hcl, hfew'⟩, m, hm0, hm2⟩
  have hread : reading (d :: r) = d :: r := by
    have hw : ∀ c ∈ d :: r, readChar c = [c] ∧ c ≠ '.' := fun c hc => readChar_letter (hlet c (List.mem_cons_of_mem _ hc))
    unfold reading
    split
    · rename_i h
      cases h
      exact absurd rfl (hw '.' (by simp)).2
    · exact flatMap_readChar_stable fun c hc => (hw c hc).1
  have hlr : (d :: r).length < 10 ^ 95 := by
    have : (g :: d :: r).length = (d :: r).length + 1 := rfl
    omega
  have hNr : NoBrivlaLeft s.yHyphens (d :: r) := by
    rintro u t0 e ⟨a, ha, hav⟩ hto hu
    refine hN (g :: u) t0 (by rw [e]; rfl) ⟨a, by rw [List.getLast?_cons, ha]; rfl, hav⟩ hto ?_
    refine adjAll_append (u := [g]) (v := u) |>.2 ⟨adjAll_single, hu, fun p q hp _ hpq => ?_⟩
    simp at hp
    subst hp
    exact vowel_not_consonant hgv hpq.1
  have hnci : ¬ ConsonantInitial (d :: r) := vowel_not_consonant hd
  have hzih : analyseBrivla .linked { yHyphens := s.yHyphens } (d :: r) = .ok (.zihevla, [d :: r]) := by
    refine (zihevla_iff (by rw [hread]; exact hlr)).2 ?_
    rw [hread]
    exact ⟨rfl, hform, fun h => hnci (gismu_two h).1, fun qs hq e => hnci (e ▸ (lujvo_two hq).1), (tails_iff hform hlr).2 hNr, fun h => absurd h hnci⟩
  have := hN [g] (d :: r) rfl ⟨g, rfl, hgv⟩ (.inr hon) adjAll_single
  unfold isBrivla at this
  rw [hzih] at this
  cases this

/-- No on-glide comes behind y', unless pairs that are not permissible are. -/
theorem part_glide {s : Settings} {cm f last nl : Bool} {cl : Prop} {p : YPart} (h : PartOk s cm f last nl cl p) (hexp : s.expRafsi = false)
    (hmz : s.allowMz = false) (hlen : p.core.length + 2 < 10 ^ 90) (hl : p.lead = true) : ¬ Onglide p.core := by
  intro ho
  have hkind := h.kind
  cases hk : p.kind with
  | cvc =>
    rw [hk] at hkind
    obtain ⟨a, b, c, e1, h1, -, -⟩ := tarmi_cvc.1 (pattern_cvc.1 hkind.1)
    rw [e1] at ho
    exact onglide_not_consonant ho ((isConsonant_iff _).1 h1)
  | rafsi =>
    rw [hk] at hkind
    obtain ⟨y, hq, hqr⟩ := hkind.reading.first
    obtain ⟨c, l, rfl, hc⟩ := rafsi_first hqr
    rw [← hkind.core] at ho
    obtain ⟨y, l', hpl⟩ := List.exists_cons_of_ne_nil (part_pieces h)
    rw [hpl] at ho hq
    cases hq
    exact onglide_not_consonant ho ((isConsonant_iff _).1 hc)
  | exp => rw [hk] at hkind; have := hkind.option; rw [hexp] at this; cases this
  | zihevla =>
    rw [hk] at hkind
    obtain ⟨-, x, t, syls, hrun, hfl, hvr, hh⟩ := h.lead hl
    have hb : (10 : Nat) ^ 93 = 1000 * 10 ^ 90 ∧ (10 : Nat) ^ 95 = 100000 * 10 ^ 90 := by decide
    have hW := zpart_whole hkind (by omega) (hkind.syllables (.inr hexp))
    obtain ⟨u, ch, t2, hr, h2, -⟩ := hkind.cluster
    unfold YPart.whole at hW hr
    split at hW
    · rename_i hc
      rw [if_pos hc] at hr
      obtain ⟨g, d, r, e, hg, hd⟩ := onglide_vowel ho
      refine lead_glide hW hmz (by simp; omega) (x := x) (t := t ++ s%"a") ?_ hfl hvr hh (by rw [e]; exact ⟨hg, hd⟩)
      refine ⟨by conv => lhs; rw [hrun.eq]
                 simp, hrun.some, hrun.all, hrun.before, ?_⟩
      intro c hc
      cases t with
      | nil =>
        exfalso
        obtain ⟨c0, ch, rfl⟩ := List.exists_cons_of_ne_nil hr.some
        have h3 : c0 ∈ p.core ++ s%"a" := by rw [hr.eq]; simp
        rw [hrun.eq] at h3
        have h4 := hr.all c0 (by simp)
        simp only [List.nil_append, List.append_nil, List.mem_append, List.mem_singleton] at h3
        rcases h3 with h3 | rfl
        · exact vowel_not_consonant (hrun.all c0 h3) h4
        · exact absurd h4 (by decide)
      | cons a t => exact hrun.after c hc
    · exact lead_glide hW hmz (by omega) hrun hfl hvr hh ho

end Jvotci
