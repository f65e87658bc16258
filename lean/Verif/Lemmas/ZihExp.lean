import Verif.Lemmas.ZihIff
import Verif.SpecExtended

/-!
# Helper lemmas: what `check_zihevla_or_rafsi` accepts if it need not be a zi'evla
-/

namespace Jvotci

open Spec

theorem zihVowels_one {v chunk : Str} {st st' : ZState} {sy : List Str} (h : zihVowels v chunk st = .ok st')
    (hs : splitVowelCluster chunk = .ok sy) (hc : st.clusterPos = none)
    (hb : (if st.pos = 0 then v.getLast? else v[st.pos - 1]?) ≠ some '\'') (he : st.pos + chunk.length = v.length) : sy.length ≤ 1 := by
  have e : (join sy) = chunk := by
    have := (splitVowelCluster_iff.1 hs).1
    rw [← this]
    rfl
  unfold zihVowels at h
  rw [hs] at h
  dsimp only at h
  obtain ⟨h, -⟩ := ite_error_ok h
  apply Nat.le_of_not_lt
  intro hlt
  exact h ⟨hc, hb, hlt, by rw [e]; exact he⟩

theorem zihScan_exp {mz : Bool} {v : Str} (hvl : v.getLast? ≠ some '\'') : ∀ {fuel : Nat} {rest pre : Str} {st st' : ZState},
    zihScan mz v fuel rest st = .ok st' → v = pre ++ rest → st.pos = pre.length →
    (∀ a b, pre.getLast? = some a → rest.head? = some b → ¬ (Vowel a ∧ Vowel b)) →
    (0 < st.finalConsonantPos → ∃ c ∈ pre.tail, Consonant c) →
    (st.finalConsonantPos = 0 → ∃ k r, pre = k ++ r ∧ (∀ c ∈ k, Consonant c) ∧ ∀ c ∈ r, ¬ Consonant c) →
    (0 < st'.finalConsonantPos → ∃ c ∈ v.tail, Consonant c) ∧
    (st'.finalConsonantPos = 0 → ∃ k r, v = k ++ r ∧ (∀ c ∈ k, Consonant c) ∧ ∀ c ∈ r, ¬ Consonant c) ∧
    (st'.clusterPos = none → st.clusterPos = none ∧ ∀ u x, Run Vowel v u x [] → pre.length ≤ u.length → u.getLast? ≠ some '\'' →
      ∀ syls, syls.flatten = x → VowelRun syls → syls.length ≤ 1) := by
  intro fuel
  induction fuel with
  | zero => intro rest pre st st' h; cases h
  | succ fuel ih =>
    intro rest pre st st' h hv hp hadj hpos hzero
    cases rest with
    | nil =>
      cases h
      simp at hv
      subst hv
      refine ⟨hpos, hzero, fun h => ⟨h, ?_⟩⟩
      intro u x hr hl
      have := congrArg List.length hr.eq
      simp at this
      have := List.length_pos_iff.2 hr.some
      omega
    | cons c cs =>
      unfold zihScan at h
      split at h
      · rename_i hc
        obtain ⟨st1, h1, h⟩ := bind_ok h
        obtain ⟨rfl, -⟩ := zihConsonants_ok h1
        have hne := takeWhile_ne_nil (w := cs) hc
        have hall := takeWhile_all (p := isConsonant) (w := c :: cs)
        have heq : c :: cs = (c :: cs).takeWhile isConsonant ++ (c :: cs).dropWhile isConsonant :=
          List.takeWhile_append_dropWhile.symm
        generalize (c :: cs).takeWhile isConsonant = chunk at *
        generalize (c :: cs).dropWhile isConsonant = rest' at *
        obtain ⟨i1, i2, i3⟩ := ih (pre := pre ++ chunk) h (by rw [hv, heq]; simp) (by simp [hp])
          (by
            intro a b ha _ hab
            rw [getLast?_append_ne _ hne] at ha
            exact consonant_not_vowel ((isConsonant_iff a).1 (hall a (getLast_mem ha))) hab.1)
          (by
            intro h0
            dsimp only at h0
            cases pre with
            | nil => simp at hp; omega
            | cons a pre =>
              obtain ⟨d, hd⟩ := List.exists_mem_of_ne_nil _ hne
              exact ⟨d, by simp [hd], (isConsonant_iff d).1 (hall d hd)⟩)
          (by
            intro h0
            dsimp only at h0
            cases pre with
            | nil => exact ⟨chunk, [], by simp, fun d hd => (isConsonant_iff d).1 (hall d hd), by simp⟩
            | cons a pre => simp at hp; omega)
        refine ⟨i1, i2, fun h => ?_⟩
        obtain ⟨i4, i5⟩ := i3 h
        refine ⟨?_, ?_⟩
        · dsimp only at i4
          split at i4
          · cases i4
          · exact i4
        · intro u x hrun hl
          refine i5 u x hrun ?_
          obtain ⟨d, x', rfl⟩ := List.exists_cons_of_ne_nil hrun.some
          exact beyond (v := v) (c := d) (u := u) (t := x' ++ []) (rest := rest') (by rw [hv, heq]; simp) (fun d hd => (isConsonant_iff d).1 (hall d hd)) (by rw [hrun.eq]; simp)
            (vowel_not_consonant (hrun.all d (by simp))) hl
      · split at h
        · rename_i hvw
          obtain ⟨st1, h1, h⟩ := bind_ok h
          obtain ⟨sy, hsy, rfl, -⟩ := zihVowels_ok h1
          have hr := run_of_split isVowel_iff hv hvw (fun a ha hca => hadj a c ha rfl ⟨hca, (isVowel_iff c).1 hvw⟩)
          generalize (c :: cs).takeWhile isVowel = chunk at *
          generalize (c :: cs).dropWhile isVowel = rest' at *
          obtain ⟨i1, i2, i3⟩ := ih (pre := pre ++ chunk) h hr.eq (by simp [hp])
            (by
              intro a b ha hb hab
              exact hr.after b hb hab.2)
            (by
              intro h0
              obtain ⟨d, hd, hd2⟩ := hpos h0
              cases pre with
              | nil => cases hd
              | cons a pre => exact ⟨d, by simp at hd ⊢; exact .inl hd, hd2⟩)
            (by
              intro h0
              obtain ⟨k, r, rfl, hk, hr2⟩ := hzero h0
              refine ⟨k, r ++ chunk, by simp, hk, ?_⟩
              intro d hd
              rcases List.mem_append.1 hd with hd | hd
              · exact hr2 d hd
              · exact vowel_not_consonant (hr.all d hd))
          refine ⟨i1, i2, fun h => ?_⟩
          obtain ⟨i4, i5⟩ := i3 h
          refine ⟨i4, ?_⟩
          intro u x hrun hl hap syls e1 e2
          rcases Nat.lt_or_ge pre.length u.length with hlt | hge
          · exact i5 u x hrun (run_beyond hr hrun hlt) hap syls e1 e2
          · obtain ⟨rfl, rfl, rfl⟩ := run_same hr hrun (by omega)
            have := splitVowelCluster_iff.2 ⟨e1, e2⟩
            refine zihVowels_one h1 this i4 ?_ (by rw [hr.eq, hp]; simp)
            split
            · exact hvl
            · rename_i h0
              have hpl : 0 < pre.length := by omega
              rw [hr.eq, hp, List.append_assoc, List.getElem?_append_left (by omega), ← List.getLast?_eq_getElem?]
              exact hap
        · split at h
          · rename_i hap
            subst hap
            obtain ⟨hb1, h⟩ := ite_error_ok h
            obtain ⟨hb2, h⟩ := ite_error_ok h
            obtain ⟨i1, i2, i3⟩ := ih (pre := pre ++ ['\'']) h (by rw [hv]; simp) (by simp [hp])
              (by
                intro a b ha hb
                simp at ha
                subst ha
                exact fun h => apos_not_vowel h.1)
              (by
                intro h0
                obtain ⟨d, hd, hd2⟩ := hpos h0
                cases pre with
                | nil => cases hd
                | cons a pre => exact ⟨d, by simp at hd ⊢; exact .inl hd, hd2⟩)
              (by
                intro h0
                obtain ⟨k, r, rfl, hk, hr2⟩ := hzero h0
                refine ⟨k, r ++ ['\''], by simp, hk, ?_⟩
                intro d hd
                rcases List.mem_append.1 hd with hd | hd
                · exact hr2 d hd
                · simp at hd; subst hd; exact apos_not_consonant)
            refine ⟨i1, i2, fun h => ?_⟩
            obtain ⟨i4, i5⟩ := i3 h
            refine ⟨i4, ?_⟩
            intro u x hrun hl
            refine i5 u x hrun ?_
            obtain ⟨d, x', rfl⟩ := List.exists_cons_of_ne_nil hrun.some
            exact beyond (v := v) (u := u) (c := d) (rest := cs) (t := x' ++ []) (Q := (· = '\'')) (by rw [hv]; simp) (by simp) (by rw [hrun.eq]; simp)
              (by rintro rfl; exact apos_not_vowel (hrun.all _ (by simp))) hl
          · cases h

/-- The zi'evla accepted by `check_zihevla_or_rafsi`, whether or not something else would do. -/
theorem check_zihevla_iff {y : YHyphens} {req ex mz : Bool} {v : Str} (hreq : req = true ∨ ex = true)
    (hv : ∃ c, v.getLast? = some c ∧ Vowel c) (hlen : v.length < 10 ^ 95) :
    checkZihevlaOrRafsi (program .linked) req y ex mz v = .ok .zihevla ↔
      Sounds mz v ∧ (∃ u ch t, Run Consonant v u ch t ∧ 2 ≤ ch.length ∧ (u.filter (fun c => Consonant c)).length ≤ 1) ∧
      (req = true → ∃ n, Syllables .nothing v n ∧ 2 ≤ n) ∧
      (∀ n, Syllables .nothing v n → 2 < n → NoBrivlaTail y v) ∧ NotSlinkuhi y mz v := by
  have hne : v ≠ [] := by
    rintro rfl
    obtain ⟨c, hc, -⟩ := hv
    cases hc
  constructor
  · intro h
    unfold checkZihevlaOrRafsi at h
    obtain ⟨-, h⟩ := ite_error_ok h
    obtain ⟨st, hst, h⟩ := bind_ok h
    obtain ⟨hsy, h⟩ := ite_error_ok h
    have hS := zihScan_sounds hst
    obtain ⟨n, hs, hn⟩ := zihScan_syllables (pre := []) hst rfl rfl
    obtain ⟨-, -, c3⟩ := zihScan_cluster (pre := []) hst rfl rfl rfl
      (by rintro - a b ⟨p, q, h⟩; simp at h) (by simp) (by intro h; exact absurd rfl h)
    obtain ⟨⟨⟩, ht, h⟩ := bind_ok h
    cases hcp : st.clusterPos with
    | none =>
      rw [hcp] at h
      exfalso
      dsimp only at h
      obtain ⟨-, h⟩ := ite_error_ok h
      obtain ⟨c, -, h⟩ := bind_ok h
      obtain ⟨-, h⟩ := ite_error_ok h
      obtain ⟨-, h⟩ := ite_error_ok h
      obtain ⟨-, h⟩ := ite_error_ok h
      cases h
    | some p =>
      obtain ⟨u, ch, t, hF, hp⟩ := c3 (by rw [hcp]; simp)
      rw [hcp] at h ht hp
      cases hp
      refine ⟨hS, ⟨u, ch, t, ⟨hF.eq, by intro e; have := hF.long; rw [e] at this; simp at this, hF.consonants, hF.before, hF.after⟩, hF.long, hF.few⟩,
          ?_, ?_, ?_⟩
      · rintro rfl
        refine ⟨n, hs, ?_⟩
        simp at hsy hn
        omega
      · intro n' hs' h2
        obtain rfl := syllables_unique hs hs'
        rw [← tests_iff hF]
        intro hu
        dsimp only at ht
        rw [if_pos ⟨by rw [hn]; simpa using h2, hu⟩] at ht
        obtain ⟨t, ht1, ht⟩ := bind_ok ht
        cases t with
        | true => simp at ht
        | false => exact ⟨ht1, by simpa using ht⟩
      · obtain ⟨c, hc, hcc⟩ := sounds_first hS hne
        have hsl := slinkuhi_iff (y := y) (mz := mz) hv (sounds_no_y hS) ⟨c, hc, hcc⟩ hlen
        intro hci
        cases v with
        | nil => exact absurd rfl hne
        | cons d v =>
          cases hc
          have hnv : isVowel c = false := by
            cases hb : isVowel c with
            | false => rfl
            | true => exact absurd hci (vowel_not_consonant ((isVowel_iff c).1 hb))
          dsimp only at h
          rw [show idx (c :: v) 0 = .ok c from rfl, ok_bind] at h
          simp only [hnv, Bool.false_eq_true, if_false, ok_bind, Bool.not_false, if_true] at h
          obtain ⟨t, ht1, h⟩ := bind_ok h
          cases t with
          | true => simp at h
          | false => exact hsl.1 ht1 hci
  · rintro ⟨hS, hcluster, hsyl, htail, hslk⟩
    obtain ⟨u0, ch0, t0, hr0, hl0, hf0⟩ := hcluster
    have hadj : ∃ a b, Adjacent v a b ∧ Consonant a ∧ Consonant b := by
      match ch0, hl0, hr0 with
      | a :: b :: c, _, hr0 => exact ⟨a, b, ⟨u0, c ++ t0, by rw [hr0.eq]; simp⟩, hr0.all a (by simp), hr0.all b (by simp)⟩
    have hcons : 2 ≤ (v.filter (fun c => Consonant c)).length := by
      rw [hr0.eq, List.filter_append, List.filter_append, filter_cons (w := ch0) fun c hc => (isConsonant_iff c).2 (hr0.all c hc)]
      simp; omega
    have hl2 : 2 ≤ v.length := Nat.le_trans hcons (List.length_filter_le _ _)
    have hcluster : ∃ u ch t, Run Consonant v u ch t ∧ 2 ≤ ch.length ∧ (u.filter (fun c => Consonant c)).length ≤ 1 := ⟨u0, ch0, t0, hr0, hl0, hf0⟩
    obtain ⟨st, hst⟩ := zihScan_of hS (.inl hadj) (fun u ch t hr _ ha => few_first hcluster hr ha) (fuel := v.length + 1) (rest := v) (pre := []) (st := {})
      (by omega) rfl rfl rfl (by rintro - a b ⟨p, q, h⟩; simp at h) (by simp) (by simp)
    obtain ⟨n, hs, hn'⟩ := zihScan_syllables (pre := []) hst rfl rfl
    rw [if_pos rfl] at hs
    have hlen4 := syllables_length hs
    obtain ⟨-, c2, c3⟩ := zihScan_cluster (pre := []) hst rfl rfl rfl
      (by rintro - a b ⟨p, q, h⟩; simp at h) (by simp) (by intro h; exact absurd rfl h)
    have hnone : st.clusterPos ≠ none := by
      intro h
      obtain ⟨a, b, h1, h2⟩ := hadj
      exact c2 h a b h1 h2
    obtain ⟨u, ch, t, hF, hp⟩ := c3 hnone
    obtain ⟨c, hc, hcc⟩ := sounds_first hS hne
    have hsl := (slinkuhi_iff (y := y) (mz := mz) hv (sounds_no_y hS) ⟨c, hc, hcc⟩ hlen).2 hslk
    have hreq2 : req = true → 2 ≤ n := by
      intro h
      obtain ⟨m, hm, h2⟩ := hsyl h
      rw [syllables_unique hs hm]
      exact h2
    unfold checkZihevlaOrRafsi
    simp only [Nat.zero_add] at hn'
    rw [if_neg (by rintro ⟨h1, h⟩; have := hreq2 h1; omega), hst, ok_bind, if_neg (by
      rw [hn']
      rintro ⟨h, h1⟩
      rcases hreq with h2 | h2
      · have := hreq2 h2; omega
      · rw [h2] at h1
        simp at h1
        have := hreq2 h1; omega), hp]
    dsimp only
    have htest : (if st.numSyllables > 2 ∧ u.length > 0 then do
        if ← isBrivlaR (program .linked) { yHyphens := y } (v.drop u.length) then .error .notZihevla
        else fallsApartBefore (program .linked) y v u.length (u.length - 1) 1
      else Except.ok ()) = .ok () := by
      split
      · rename_i h2
        obtain ⟨h3, h4⟩ := (tests_iff hF).2 (htail n hs (by omega)) h2.2
        rw [h3, ok_bind]
        exact h4
      · rfl
    rw [htest, ok_bind]
    match v, hc, hsl, hl2 with
    | c :: d :: v, hc, hsl, _ =>
      cases hc
      rw [show idx (c :: d :: v) 0 = .ok c from rfl, ok_bind, show idx (c :: d :: v) 1 = .ok d from rfl, hsl]
      simp only [ok_bind, Bool.false_eq_true, if_false]
      cases isVowel c <;> cases isConsonant d <;> rfl
    | [_], _, _, h => simp at h

theorem check_required {y : YHyphens} {ex mz : Bool} {v : Str} {r : Shape}
    (h : checkZihevlaOrRafsi (program .linked) true y ex mz v = .ok r) : r = .zihevla := by
  unfold checkZihevlaOrRafsi at h
  obtain ⟨-, h⟩ := ite_error_ok h
  obtain ⟨st, hst, h⟩ := bind_ok h
  obtain ⟨hsy, h⟩ := ite_error_ok h
  obtain ⟨⟨⟩, ht, h⟩ := bind_ok h
  cases hcp : st.clusterPos with
  | none => rw [hcp] at h; simp at h
  | some p =>
    rw [hcp] at h
    dsimp only at h
    obtain ⟨c, -, h⟩ := bind_ok h
    obtain ⟨d, -, h⟩ := bind_ok h
    split at h
    · obtain ⟨t, -, h⟩ := bind_ok h
      split at h
      · cases h
      · cases h; rfl
    · cases h; rfl

/-- The experimental rafsi accepted by `check_zihevla_or_rafsi`. -/
theorem check_exp_iff {y : YHyphens} {mz : Bool} {v : Str} (hv : ∃ c, v.getLast? = some c ∧ Vowel c) :
    checkZihevlaOrRafsi (program .linked) false y true mz v = .ok .rafsi ↔
      Sounds mz v ∧ (∀ c ∈ v.tail, ¬ Consonant c) ∧ OneCmavo v := by
  have hne : v ≠ [] := by
    rintro rfl
    obtain ⟨c, hc, -⟩ := hv
    cases hc
  have hvl : v.getLast? ≠ some '\'' := by
    obtain ⟨c, hc, hcv⟩ := hv
    intro h
    rw [hc] at h
    cases h
    exact apos_not_vowel hcv
  constructor
  · intro h
    unfold checkZihevlaOrRafsi at h
    obtain ⟨-, h⟩ := ite_error_ok h
    obtain ⟨st, hst, h⟩ := bind_ok h
    obtain ⟨hsy, h⟩ := ite_error_ok h
    have hS := zihScan_sounds hst
    obtain ⟨c1, -, -⟩ := zihScan_cluster (pre := []) hst rfl rfl rfl
      (by rintro - a b ⟨p, q, h⟩; simp at h) (by simp) (by intro h; exact absurd rfl h)
    obtain ⟨e1, e2, e3⟩ := zihScan_exp hvl (pre := []) hst rfl rfl (by simp) (by simp) (fun _ => ⟨[], [], rfl, by simp, by simp⟩)
    obtain ⟨⟨⟩, ht, h⟩ := bind_ok h
    cases hcp : st.clusterPos with
    | some p =>
      rw [hcp] at h
      exfalso
      dsimp only at h
      obtain ⟨c, -, h⟩ := bind_ok h
      obtain ⟨d, -, h⟩ := bind_ok h
      split at h
      · obtain ⟨t, -, h⟩ := bind_ok h
        split at h <;> cases h
      · cases h
    | none =>
      rw [hcp] at h
      dsimp only at h
      obtain ⟨-, h⟩ := ite_error_ok h
      obtain ⟨c, -, h⟩ := bind_ok h
      obtain ⟨-, h⟩ := ite_error_ok h
      obtain ⟨h2, h⟩ := ite_error_ok h
      obtain ⟨h3, h⟩ := ite_error_ok h
      refine ⟨hS, ?_, fun u x hr => (e3 hcp).2 u x hr (by simp)⟩
      obtain ⟨k, r, hkr, hk, hr⟩ := e2 (by omega)
      rw [c1, hkr, List.filter_append, filter_cons fun c hc => (isConsonant_iff c).2 (hk c hc)] at h2
      intro c hc
      rw [hkr] at hc
      match k, hk, h2, hc with
      | [], _, _, hc => exact hr c (List.mem_of_mem_tail hc)
      | [a], _, _, hc => exact hr c (by simpa using hc)
      | a :: b :: k, _, h2, _ => simp at h2
  · rintro ⟨hS, hcons, hone⟩
    obtain ⟨st, hst⟩ := zihScan_of hS (.inr hone) (fun u ch t hr h2 ha => by
        exfalso
        match ch, h2, hr with
        | a :: b :: c, _, hr =>
          refine hcons b ?_ (hr.all b (by simp))
          rw [hr.eq]
          cases u <;> simp) (fuel := v.length + 1) (rest := v) (pre := []) (st := {})
      (by omega) rfl rfl rfl (by rintro - a b ⟨p, q, h⟩; simp at h) (by simp) (by simp)
    obtain ⟨c1, -, c3⟩ := zihScan_cluster (pre := []) hst rfl rfl rfl
      (by rintro - a b ⟨p, q, h⟩; simp at h) (by simp) (by intro h; exact absurd rfl h)
    obtain ⟨e1, -, -⟩ := zihScan_exp hvl (pre := []) hst rfl rfl (by simp) (by simp) (fun _ => ⟨[], [], rfl, by simp, by simp⟩)
    have hnone : st.clusterPos = none := by
      apply Classical.byContradiction
      intro h
      obtain ⟨u, ch, t, hF, -⟩ := c3 h
      have hl := hF.long
      have heq := hF.eq
      have hall := hF.consonants
      match ch, hl with
      | a :: b :: c, _ =>
        refine hcons b ?_ (hall b (by simp))
        rw [heq]
        cases u <;> simp
    have hfc : ¬ 0 < st.finalConsonantPos := by
      intro h
      obtain ⟨c, hc, hc2⟩ := e1 h
      exact hcons c hc hc2
    have hnum : ¬ st.numConsonants > 1 := by
      rw [c1]
      cases v with
      | nil => simp
      | cons a v =>
        have : v.filter (fun c => Consonant c) = [] := by
          rw [List.filter_eq_nil_iff]
          intro c hc
          simpa using hcons c (by simpa using hc)
        rw [List.filter_cons, this]
        split <;> simp
    unfold checkZihevlaOrRafsi
    rw [if_neg (by simp), hst, ok_bind, if_neg (by simp), hnone]
    dsimp only
    rw [ok_bind]
    cases v with
    | nil => exact absurd rfl hne
    | cons c v =>
      rw [if_neg (by simp), show idx (c :: v) 0 = .ok c from rfl, ok_bind, if_neg (by simp), if_neg hnum, if_neg hfc]

end Jvotci
