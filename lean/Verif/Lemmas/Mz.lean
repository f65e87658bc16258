import Verif.Lemmas.GluedBack
import Verif.Lemmas.NoMz
import Verif.Props.Extended
import Verif.Props.Relax

/-!
# Helper lemmas: the option `allow_mz`
-/

namespace Jvotci

open Spec

/-! ## The parts of extended lujvo -/

theorem unreadable_mz {s : Settings} {b : Bool} {x : Str} (h : Unreadable s x) (hn : NoMz x) : Unreadable { s with allowMz := b } x := by
  rintro qs hq rfl
  exact h qs (reading_mz hq hn) rfl

theorem stemOk_mz {s : Settings} {b : Bool} {x : Str} (h : StemOk s x) (hn : NoMz x) (hy : 'y' ∉ x) : StemOk { s with allowMz := b } x := by
  intro hc qs hq e
  have hn' := noMz_end hn
  obtain ⟨u, g, hg, e2⟩ := h hc qs (lujvoPieces_mz (s := { yHyphens := s.yHyphens, allowMz := b }) (b := s.allowMz) hq (e ▸ hn')
    (.inr (noMyz_of_noY (by rw [e]; simpa using hy)))) e
  refine ⟨u, g, gismu_mz hg (noMz_mid (u := u) (v := []) ?_), e2⟩
  rw [List.append_nil, ← e2]
  exact hn'

theorem fallsOff_mz {s : Settings} {b : Bool} {x : Str} (h : FallsOff { s with allowMz := b } x) (hn : NoMz x) (hy : 'y' ∉ x) : FallsOff s x := by
  obtain ⟨u, m, rfl, h1, h2⟩ := h
  refine ⟨u, m, rfl, h1, h2.imp_right ?_⟩
  rintro ⟨qs, rfl, h3⟩
  have hn' : NoMz qs.flatten := noMz_mid (u := u) (v := []) (by simpa using hn)
  have hy' : NoMyz qs.flatten := noMyz_of_noY (fun h => hy (List.mem_append_right _ h))
  refine ⟨qs, rfl, h3.imp ?_ ?_⟩
  · exact fun h => lujvoPieces_mz (s := { yHyphens := s.yHyphens, allowMz := b }) (b := s.allowMz) h hn' (.inr hy')
  · exact fun h => cmevlaPieces_mz (s := { yHyphens := s.yHyphens, allowMz := b }) (b := s.allowMz) h hn' (.inr hy')

theorem partOk_mz {s : Settings} {b cm f l nl : Bool} {cl : Prop} {p : YPart} (h : PartOk s cm f l nl cl p) (hn : NoMz p.core) :
    PartOk { s with allowMz := b } cm f l nl cl p := by
  refine ⟨h.lead, h.start, h.noY, h.ends, h.trail, ?_⟩
  have hk := h.kind
  have hy := h.noY
  have hna := noMz_end hn
  have hya : 'y' ∉ p.core ++ s%"a" := by simpa using hy
  have hw : NoMz (p.whole l) ∧ 'y' ∉ p.whole l := by
    unfold YPart.whole
    split
    · exact ⟨hna, hya⟩
    · exact ⟨hn, hy⟩
  generalize hpk : p.kind = k at hk
  cases k with
  | cvc => exact hk
  | rafsi =>
    have hk : RafsiPart s cm f l nl cl p := hk
    refine ⟨reading_mz hk.reading (hk.core ▸ hn), hk.core, hk.notCvc, hk.ends, stemOk_mz hk.stem hn hy, hk.fallsOff, ?_⟩
    exact fun hf h => hk.tosmabru hf (fallsOff_mz h hn hy)
  | zihevla =>
    have hk : ZihevlaPart s l nl cl p := hk
    refine ⟨hk.pieces, fun h => unreadable_mz (hk.unreadable h) hn, stemOk_mz hk.stem hn hy, sounds_mz hk.sounds hw.1, hk.vowel, hk.cluster,
      hk.syllables, hk.together, ?_, fun h1 h2 => unreadable_mz (hk.notRafsi h1 h2) hna⟩
    intro hc qs hq e
    refine hk.slinkuhi hc qs (lujvoPieces_mz (s := { yHyphens := s.yHyphens, allowMz := b }) (b := s.allowMz) hq ?_ (.inr ?_)) e
    · rw [e]; exact noMz_to hw.1
    · rw [e]; exact noMyz_to (noMyz_of_noY hw.2)
  | exp =>
    have hk : ExpPart s l nl cl p := hk
    exact ⟨hk.pieces, hk.option, hk.free, unreadable_mz hk.unreadable hn, sounds_mz hk.sounds hn, hk.vowel, hk.consonants, hk.one⟩

theorem joinParts_core {u v : List YPart} {p : YPart} : ∃ a b, joinParts (u ++ p :: v) = a ++ p.core ++ b := by
  induction u with
  | nil =>
    cases v with
    | nil => exact ⟨_, _, rfl⟩
    | cons q v => exact ⟨if p.lead then s%"'" else [], (if p.trail then s%"'" else []) ++ s%"y" ++ joinParts (q :: v), by simp [joinParts, YPart.text]⟩
  | cons q u ih =>
    obtain ⟨a, b, e⟩ := ih
    cases u with
    | nil => exact ⟨q.text ++ s%"y" ++ a, b, by simp [joinParts] at e ⊢; exact e⟩
    | cons q' u => exact ⟨q.text ++ s%"y" ++ a, b, by simp [joinParts] at e ⊢; exact e⟩

theorem extendedLujvo_mz {s : Settings} {b : Bool} {ps : List YPart} (h : ExtendedLujvo s ps) (hn : NoMz (joinParts ps))
    (hy : b = true ∨ NoMyz (joinParts ps)) : ExtendedLujvo { s with allowMz := b } ps := by
  refine ⟨h.two, ?_, h.consonants, h.vowel, h.begin, ?_, ?_⟩
  · rintro u p v rfl
    obtain ⟨a, c, e⟩ := joinParts_core (u := u) (p := p) (v := v)
    exact partOk_mz (h.parts u p v rfl) (noMz_mid (e ▸ hn))
  · intro qs hq e
    exact h.notLujvo qs (lujvoPieces_mz (s := { s with allowMz := b }) (b := s.allowMz) hq (e ▸ hn) (e ▸ hy)) e
  · intro hc qs hq e
    refine h.slinkuhi hc qs (lujvoPieces_mz (s := { yHyphens := s.yHyphens, allowMz := b }) (b := s.allowMz) hq ?_ ?_) e
    · rw [e]; exact noMz_to hn
    · rw [e]; exact hy.imp_right noMyz_to

theorem extendedCmevla_mz {s : Settings} {b : Bool} {ps : List YPart} (h : ExtendedCmevla s ps) (hn : NoMz (joinParts ps))
    (hy : b = true ∨ NoMyz (joinParts ps)) : ExtendedCmevla { s with allowMz := b } ps := by
  refine ⟨h.two, ?_, h.consonant, h.begin, ?_, ?_⟩
  · rintro u p v rfl
    obtain ⟨a, c, e⟩ := joinParts_core (u := u) (p := p) (v := v)
    exact partOk_mz (h.parts u p v rfl) (noMz_mid (e ▸ hn))
  · intro qs hq e
    exact h.notCmevla qs (cmevlaPieces_mz (s := { s with allowMz := b }) (b := s.allowMz) hq (e ▸ hn) (e ▸ hy)) e
  · intro hc qs hq e
    refine h.slinkuhi hc qs (cmevlaPieces_mz (s := { yHyphens := s.yHyphens, allowMz := b }) (b := s.allowMz) hq ?_ ?_) e
    · rw [e]; exact noMz_to hn
    · rw [e]; exact hy.imp_right noMyz_to

/-! ## Cutting a word -/

theorem badFour_mz {mz mz' : Bool} {w : Str} (h : NoMz w) : badFour mz w = badFour mz' w := by
  have hs : (validPairs mz).contains (slice w 2 4) = (validPairs mz').contains (slice w 2 4) := by
    have key : ∀ x : Str, x ≠ s%"mz" → MZ_VALID.contains x = VALID.contains x := by
      intro x hx
      unfold MZ_VALID
      generalize VALID = l
      simp [hx]
    have := key (slice w 2 4) (by intro e; exact noMz_slice (m := 2) (n := 4) h ⟨[], [], e⟩)
    match mz, mz' with
    | true, true => rfl
    | false, false => rfl
    | true, false => exact this
    | false, true => exact this.symm
  unfold badFour
  rw [hs]

theorem takeRafsi_mz {mz mz' : Bool} {o w : Str} (h : NoMz w) : takeRafsi mz o w = takeRafsi mz' o w := by
  unfold takeRafsi
  rw [badFour_mz (mz' := mz') h]

theorem takeRafsi_rest {mz : Bool} {o w rest : Str} {ps : List Str} (h : takeRafsi mz o w = .ok (.pieces ps rest)) : ∃ n, rest = w.drop n := by
  unfold takeRafsi at h
  dsimp only at h
  repeat' split at h
  all_goals first | (cases h; done) | (cases h; exact ⟨_, rfl⟩)

theorem jvokaha2_mz {y : YHyphens} {mz mz' : Bool} {w : Str} (h : NoMz w) : jvokaha2 y mz w = jvokaha2 y mz' w := by
  unfold jvokaha2
  generalize w.length + 1 = n
  generalize hv : w = v at h
  have key : ∀ n v res, NoMz v → jvokaha2Loop y mz w n v res = jvokaha2Loop y mz' w n v res := by
    intro n
    induction n with
    | zero => intros; rfl
    | succ n ih =>
      intro v res h
      unfold jvokaha2Loop
      rw [takeRafsi_mz (mz' := mz') h]
      split
      · rfl
      · cases takeHyphen y v res with
        | error e => rfl
        | ok o =>
          cases o with
          | some g => exact ih _ _ (noMz_drop h)
          | none =>
            show (takeRafsi mz' w v >>= _) = (takeRafsi mz' w v >>= _)
            cases hc : takeRafsi mz' w v with
            | error e => rfl
            | ok c =>
              cases c with
              | final p => rfl
              | pieces ps rest =>
                obtain ⟨k, rfl⟩ := takeRafsi_rest hc
                exact ih _ _ (noMz_drop h)
  subst hv
  exact key n w [] h

/-- If the slinku'i test raises an error, it does so whatever `allow_mz` is. -/
theorem slinkuhi_index {y : YHyphens} {mz mz' : Bool} {w : Str} {c : Char} (hn : NoMz w) (hc : w.getLast? = some c) (hv : Vowel c ∨ Consonant c)
    (h : isSlinkuhi (program .linked) y mz w = .error .index) : ∃ e, isSlinkuhi (program .linked) y mz' w = .error e := by
  cases w with
  | nil => cases hc
  | cons a w =>
    unfold isSlinkuhi at h ⊢
    rw [show idx (a :: w) 0 = .ok a from rfl, ok_bind] at h ⊢
    by_cases hva : isVowel a = true
    · rw [if_pos hva] at h; cases h
    · rw [if_neg hva] at h ⊢
      have hlast : (s%"to" ++ a :: w).getLast? = some c := by rw [List.getLast?_append, hc]; rfl
      cases h2 : jvokaha2 y mz (s%"to" ++ a :: w) with
      | ok ps =>
        have := jvokaha_caught (co := .cluster) (gl := false) hlast hv (by rw [h2]; exact Errs.ok)
        cases hj : jvokaha (program .linked) y .cluster false mz (s%"to" ++ a :: w) with
        | ok r => rw [hj] at h; cases h
        | error e =>
          have := this e hj
          rw [hj] at h
          simp [caughtErrs] at this
          rcases this with rfl | rfl <;> cases h
      | error e =>
        have h2' : jvokaha2 y mz' (s%"to" ++ a :: w) = .error e := by rw [← jvokaha2_mz (mz := mz) (noMz_to hn)]; exact h2
        have hj : ∀ m, jvokaha2 y m (s%"to" ++ a :: w) = .error e →
            jvokaha (program .linked) y .cluster false m (s%"to" ++ a :: w) = .error e := by
          intro m hm
          unfold jvokaha
          rw [hm]
          rfl
        rw [hj _ h2] at h
        rw [hj _ h2']
        cases e <;> first | exact ⟨_, rfl⟩ | cases h

end Jvotci
