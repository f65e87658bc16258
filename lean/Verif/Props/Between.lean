import Verif.Lemmas.CmavoWord
import Verif.Lemmas.FoundWords
import Verif.Props.Extended

/-!
# C67: rafsi on their own between hyphens

differences.md: "CVV, CVhV, and CCV forms are allowed on their own between y-hyphens" (kerlyspa'ykerlo).
-/

namespace Jvotci

open Spec

/-- Rafsi that end in a vowel, to stand between two y. -/
structure Segment (s : Settings) (x : List Str) : Prop where
  reading : Reading s.yHyphens s.allowMz x
  noY : 'y' ∉ x.flatten
  vowel : ∃ v, x.flatten.getLast? = some v ∧ Vowel v

def midPart (x : List Str) : YPart := ⟨false, x.flatten, true, .rafsi, x⟩

def endPart (x : List Str) : YPart := ⟨false, x.flatten, false, .rafsi, x⟩

theorem join_segments {segs : List (List Str)} {last : List Str} :
    joinParts (segs.map midPart ++ [endPart last]) = (segs.map fun x => x.flatten ++ s%"'y").flatten ++ last.flatten ∧
    joinPieces (segs.map midPart ++ [endPart last]) = (segs.map fun x => x ++ [s%"'y"]).flatten ++ last := by
  induction segs with
  | nil => simp [joinParts, joinPieces, endPart, YPart.text]
  | cons x segs ih =>
    obtain ⟨q, v, e⟩ : ∃ q v, segs.map midPart ++ [endPart last] = q :: v := List.exists_cons_of_ne_nil (by simp)
    have hq : q.lead = false := by
      have : q ∈ segs.map midPart ++ [endPart last] := by rw [e]; simp
      simp only [List.mem_append, List.mem_map, List.mem_singleton] at this
      rcases this with ⟨x, -, rfl⟩ | rfl <;> rfl
    rw [List.map_cons, List.cons_append]
    rw [e] at ih ⊢
    simp only [joinParts, joinPieces, ih.1, ih.2, hq]
    simp [midPart, YPart.text]

/-- In a lujvo there is no 'y behind another y. -/
theorem no_later_y {s : Settings} {qs : List Str} {A B t : Str} (h : LujvoPieces s qs) : qs.flatten ≠ B ++ 'y' :: A ++ s%"'y" ++ t := by
  intro e
  obtain ⟨u, g, v, rfl, hc, -⟩ := piece_at_y (reading_pieces' h.reading) (A := B ++ 'y' :: A ++ s%"'") (t := t) (by rw [e]; simp)
  have hne : u ≠ [] := by
    rintro rfl
    rcases hc with ⟨-, h⟩ | ⟨-, h⟩
    · simp at h
    · have := congrArg (fun l => 'y' ∈ l) h
      simp at this
  obtain ⟨u, p, rfl⟩ : ∃ u' p, u = u' ++ [p] := ⟨u.dropLast, u.getLast hne, (List.dropLast_concat_getLast hne).symm⟩
  have hl := h.reading.links u p g v (by simp)
  have hny : ∀ {x : Str}, Rafsi s.allowMz x → x ≠ s%"y" := by
    rintro x hx rfl
    exact rafsi_noY hx (by simp)
  rcases hc with ⟨rfl, hf⟩ | ⟨rfl, hf⟩
  · have hp : Rafsi s.allowMz p := by
      generalize hg : s%"y" = g at hl
      cases hl with
      | rafsi _ h => exact absurd hg.symm (hny h)
      | y h => exact h
      | apostropheY => cases hg
      | rOrN _ h => exact h
      | afterY _ h => exact absurd hg.symm (hny h)
      | afterR h => exact absurd hg.symm (hny h)
      | afterN h => exact absurd hg.symm (hny h)
    obtain ⟨p', l, rfl, hlv⟩ := rafsi_last hp
    have : '\'' = l := by
      have := congrArg List.getLast? hf
      simp only [List.flatten_append, List.flatten_cons, List.flatten_nil, List.append_nil, ← List.append_assoc, List.getLast?_append,
        List.getLast?_singleton, Option.some_or, Option.some.injEq] at this
      exact this.symm
    subst this
    rcases hlv with hl | hl
    · exact absurd hl (by decide)
    · exact absurd hl (by decide)
  · cases v with
    | nil =>
      obtain ⟨x, hx, hr⟩ := h.reading.last
      rw [List.append_assoc, List.getLast?_append] at hx
      cases hx
      exact rafsi_noY hr (by simp)
    | cons q v =>
      obtain ⟨-, rfl, -, -⟩ := h.apostropheY u p q v (by simp)
      obtain ⟨x, hx, hr⟩ := h.reading.first
      cases hx
      have hpe : p = B ++ 'y' :: A := by
        refine List.append_cancel_right (bs := s%"'") ?_
        simpa using hf
      exact rafsi_noY hr (by rw [hpe]; simp)

/-- **C67.** Rafsi can stand between two y, one by one or several together: if the word is a gismu without its last vowel, y, one or more stretches of rafsi that
end in vowels, each with 'y behind it, and another stretch of rafsi ending in a vowel, `analyse_brivla` returns `EXTENDED_LUJVO` and these pieces, whatever
the options. -/
theorem C67_stretches {s : Settings} {m : Str} {c : Char} {segs : List (List Str)} {last : List Str} (hg : Gismu s.allowMz (m ++ [c])) (hne : segs ≠ [])
    (hsegs : ∀ x ∈ segs, Segment s x) (hlast : Segment s last)
    (hlen : (m ++ s%"y" ++ (segs.map fun x => x.flatten ++ s%"'y").flatten ++ last.flatten).length < 10 ^ 93) :
    analyseBrivla .linked s (m ++ s%"y" ++ (segs.map fun x => x.flatten ++ s%"'y").flatten ++ last.flatten) =
      .ok (.extendedLujvo, m :: s%"y" :: (segs.map fun x => x ++ [s%"'y"]).flatten ++ last) := by
  obtain ⟨hmr, hm4, -, -⟩ := gismu_cut hg
  obtain ⟨hml, hmi, hmv⟩ := stem_letters hg
  obtain ⟨-, d, hd, hdc⟩ := cut_pattern hg
  have hmnoY : 'y' ∉ m := by
    intro h
    rcases hml _ h with h | h <;> revert h <;> decide
  obtain ⟨J1, J2⟩ := join_segments (segs := segs) (last := last)
  obtain ⟨q, v, e⟩ : ∃ q v, segs.map midPart ++ [endPart last] = q :: v := List.exists_cons_of_ne_nil (by simp)
  have hq : q.lead = false := by
    have : q ∈ segs.map midPart ++ [endPart last] := by rw [e]; simp
    simp only [List.mem_append, List.mem_map, List.mem_singleton] at this
    rcases this with ⟨x, -, rfl⟩ | rfl <;> rfl
  rw [e] at J1 J2
  have hword : joinParts (⟨false, m, false, .rafsi, [m]⟩ :: q :: v) = m ++ s%"y" ++ (segs.map fun x => x.flatten ++ s%"'y").flatten ++ last.flatten := by
    simp only [joinParts, J1]
    simp [YPart.text]
  have hletters : ∀ {x}, Segment s x → ∀ d ∈ x.flatten, Vowel d ∨ Consonant d ∨ d = '\'' := by
    intro x hx
    exact reading_piece_letters hx.reading hx.noY
  have hread : reading (m ++ s%"y" ++ (segs.map fun x => x.flatten ++ s%"'y").flatten ++ last.flatten) =
      m ++ s%"y" ++ (segs.map fun x => x.flatten ++ s%"'y").flatten ++ last.flatten := by
    refine reading_lettersY fun d hd => ?_
    have seg : ∀ {x}, Segment s x → d ∈ x.flatten → Vowel d ∨ Consonant d ∨ d = '\'' ∨ d = 'y' := by
      intro x hx hd
      rcases hletters hx d hd with h | h | h
      · exact .inl h
      · exact .inr (.inl h)
      · exact .inr (.inr (.inl h))
    simp only [List.mem_append] at hd
    rcases hd with ((hd | hd) | hd) | hd
    · exact (hml d hd).elim .inl (fun h => .inr (.inl h))
    · simp at hd; exact .inr (.inr (.inr hd))
    · obtain ⟨l, hl, hd⟩ := List.mem_flatten.1 hd
      obtain ⟨x, hx, rfl⟩ := List.mem_map.1 hl
      rcases List.mem_append.1 hd with hd | hd
      · exact seg (hsegs x hx) hd
      · simp at hd
        rcases hd with rfl | rfl <;> simp
    · exact seg hlast hd
  rw [C47_extended hlen]
  refine ⟨⟨false, m, false, .rafsi, [m]⟩ :: q :: v, by rw [hread, hword], ?_, ?_⟩
  · simp only [joinPieces, J2, hq]
    simp
  have hrm : Reading s.yHyphens s.allowMz [m] := reading_oneRafsi hmr (diph_long (by omega))
  obtain ⟨x0, segs', rfl⟩ := List.exists_cons_of_ne_nil hne
  have hbegin : ∀ (B : Str), ∃ A t, B ++ joinParts (⟨false, m, false, .rafsi, [m]⟩ :: q :: v) = (B ++ m) ++ 'y' :: A ++ s%"'y" ++ t :=
    fun B => ⟨x0.flatten, (segs'.map fun x => x.flatten ++ s%"'y").flatten ++ last.flatten, by rw [hword]; simp⟩
  refine ⟨by simp, ?_, .inl (.inl ⟨⟨false, m, false, .rafsi, [m]⟩, List.mem_cons_self, .inr ⟨rfl, m, List.mem_cons_self, hmv⟩⟩), ?_, ?_, ?_, ?_⟩
  · intro u p w hp
    cases u with
    | nil =>
      cases hp
      refine ⟨by simp, fun _ => .inr hmi, hmnoY, ?_, by simp, ?_⟩
      · rw [hd]
        rintro ⟨⟩
        revert hdc; decide
      · refine ⟨hrm, by simp, ?_, ?_, ?_, ?_, fun _ => stem_noFall hm4⟩
        · intro e
          have := congrArg List.length e
          simp [pattern] at this
          omega
        · intro _ _
          exact ⟨d, hd, hdc⟩
        · intro _ qs hq e
          have hl : qs.flatten.length ≤ 5 := by rw [e]; simp [hm4]
          have := reading_single hq.reading hl
          have h2 := hq.two
          rw [this] at h2
          simp at h2
        · intro _ _ h
          cases h
    | cons p0 u =>
      rw [← e] at hp
      obtain ⟨rfl, hp'⟩ := List.cons.inj hp
      have key : ∀ {x : List Str} {p : YPart} {l : Bool}, Segment s x → p = ⟨false, x.flatten, !l, .rafsi, x⟩ →
          PartOk s false false l (w.head?.any YPart.lead) (ClusterBefore s (⟨false, m, false, .rafsi, [m]⟩ :: u) p) p := by
        rintro x p l hx rfl
        obtain ⟨z, hz, hzv⟩ := hx.vowel
        refine ⟨by simp, fun _ => ?_, hx.noY, ?_, ?_, ?_⟩
        · exact .inl (reading_head hx.reading)
        · dsimp only
          rw [hz]
          rintro ⟨⟩
          revert hzv; decide
        · intro hl
          cases l with
          | false => exact ⟨rfl, z, hz, hzv⟩
          | true => cases hl
        · refine ⟨hx.reading, rfl, ?_, ?_, ?_, ?_, by simp⟩
          · intro hp
            obtain ⟨a, b, c, hp, -, -, hc⟩ := tarmi_cvc.1 (pattern_cvc.1 hp)
            dsimp only at hp
            rw [hp] at hz
            cases hz
            exact vowel_not_consonant hzv ((isConsonant_iff _).1 hc)
          · intro h1 h2
            subst h2
            cases h1
          · rintro ⟨c, hc, hcc⟩
            dsimp only at hc
            rw [hz] at hc
            cases hc
            exact absurd hcc (vowel_not_consonant hzv)
          · intro _ _ _ _ _
            exact .inl (.inl ⟨_, List.mem_cons_self, .inr ⟨rfl, m, List.mem_cons_self, hmv⟩⟩)
      have fin : w = [] → p = endPart last → PartOk s false false w.isEmpty (w.head?.any YPart.lead) (ClusterBefore s (⟨false, m, false, .rafsi, [m]⟩ :: u) p) p := by
        rintro hw rfl
        rw [hw]
        subst hw
        exact key hlast rfl
      rcases List.append_eq_append_iff.1 hp' with ⟨k, e1, e2⟩ | ⟨k, e1, e2⟩
      · cases k with
        | nil => cases e2; exact fin rfl rfl
        | cons _ k => simp at e2
      · cases k with
        | nil => cases e2; exact fin rfl rfl
        | cons p' k =>
          cases e2
          have : p ∈ (x0 :: segs').map midPart := by rw [e1]; simp
          obtain ⟨x, hx, rfl⟩ := List.mem_map.1 this
          have hw : (k.append [endPart last]).isEmpty = false := by cases k <;> rfl
          rw [hw]
          exact key (hsegs x hx) rfl
  · obtain ⟨z, hz, hzv⟩ := hlast.vowel
    refine ⟨z, ?_, hzv⟩
    rw [hword, List.getLast?_append, hz]
    rfl
  · rintro a' b' c' v - hc' e
    rw [hword] at e
    obtain ⟨m1, m2, m3, m4, rfl⟩ : ∃ m1 m2 m3 m4, m = [m1, m2, m3, m4] := by
      match m, hm4 with
      | [m1, m2, m3, m4], _ => exact ⟨_, _, _, _, rfl⟩
    have : m4 = '\'' := by
      have := congrArg (fun l => l[3]?) e
      simpa using this
    subst this
    rcases hml '\'' (by simp) with h | h <;> revert h <;> decide
  · intro qs hq e
    obtain ⟨A, t, h⟩ := hbegin []
    exact no_later_y hq (e.trans h)
  · intro _ qs hq e
    obtain ⟨A, t, h⟩ := hbegin s%"to"
    exact no_later_y hq (e.trans h)

/-- **C67.** In particular CVV, CV'V and CCV rafsi can stand on their own between hyphens. -/
theorem C67_on_their_own {s : Settings} {m g : Str} {c : Char} {mid : List Str} (hm : Gismu s.allowMz (m ++ [c])) (hg : Gismu s.allowMz g)
    (hne : mid ≠ []) (hmid : ∀ x ∈ mid, (Rafsi s.allowMz x ∧ pattern x = s%"CCV") ∨
      ∃ c a b, Consonant c ∧ Vowel a ∧ Vowel b ∧ ((x = [c, a, b] ∧ [a, b] ∈ [s%"ai", s%"ei", s%"oi", s%"au"]) ∨ x = [c, a, '\'', b]))
    (hlen : (m ++ s%"y" ++ (mid.map (· ++ s%"'y")).flatten ++ g).length < 10 ^ 93) :
    analyseBrivla .linked s (m ++ s%"y" ++ (mid.map (· ++ s%"'y")).flatten ++ g) =
      .ok (.extendedLujvo, m :: s%"y" :: (mid.map fun x => [x, s%"'y"]).flatten ++ [g]) := by
  have seg : ∀ {x : Str}, Rafsi s.allowMz x → Diph x → (∃ v, x.getLast? = some v ∧ Vowel v) → Segment s [x] := by
    intro x h1 h2 h3
    exact ⟨reading_oneRafsi h1 h2, by simpa using rafsi_noY h1, by simpa using h3⟩
  have hgs : Segment s [g] := by
    refine seg (.gismu hg) (diph_long (by cases hg <;> simp)) ?_
    cases hg with
    | cvccv _ _ _ h => exact ⟨_, rfl, h⟩
    | ccvcv _ _ _ h => exact ⟨_, rfl, h⟩
  have := C67_stretches (segs := mid.map fun x => [x]) (last := [g]) hm (by simpa using hne) ?_ hgs
  · simp only [List.map_map] at this
    have e1 : (fun x : List Str => x.flatten ++ s%"'y") ∘ (fun x : Str => [x]) = (· ++ s%"'y") := by funext x; simp
    have e2 : (fun x : List Str => x ++ [s%"'y"]) ∘ (fun x : Str => [x]) = fun x => [x, s%"'y"] := by funext x; rfl
    rw [e1, e2, List.flatten_singleton] at this
    exact this hlen
  · intro x hx
    obtain ⟨x, hx', rfl⟩ := List.mem_map.1 hx
    rcases hmid x hx' with ⟨hr, hp⟩ | ⟨c, a, b, hc, ha, hb, ⟨rfl, hd⟩ | rfl⟩
    · obtain ⟨a, b, c, rfl, h1, h2, h3⟩ := tarmi_ccv.1 (pattern_ccv.1 hp)
      exact seg hr (diph_consonant (.inl ((isConsonant_iff _).1 h2))) ⟨c, rfl, (isVowel_iff _).1 h3⟩
    · refine seg (.cvv hc ha hb) ?_ ⟨b, rfl, hb⟩
      intro c' a' b' e _ _
      cases e
      exact hd
    · exact seg (.cvhv hc ha hb) (diph_long (by simp)) ⟨b, rfl, hb⟩

example : analyseBrivla .linked {} s%"kerlyspa'ykerlo" = .ok (.extendedLujvo, [s%"kerl", s%"y", s%"spa", s%"'y", s%"kerlo"]) :=
  C67_on_their_own (s := {}) (m := s%"kerl") (g := s%"kerlo") (c := 'o') (mid := [s%"spa"]) (isGismu_iff.1 (by decide)) (isGismu_iff.1 (by decide)) (by simp)
    (by intro x hx; simp at hx; subst hx; exact .inl ⟨.ccv (by decide) (by decide), by decide⟩) (by simp)

example : analyseBrivla .linked {} s%"kerlyspaspa'ykerlo" = .ok (.extendedLujvo, [s%"kerl", s%"y", s%"spa", s%"spa", s%"'y", s%"kerlo"]) := by decide +kernel

/-- The other words of differences.md. -/
example : isBrivla .linked {} s%"spaspa'ykerlo" = .ok true ∧ isBrivla .linked {} s%"toispa'ykerlo" = .ok true ∧
    isBrivla .linked {} s%"spa'ykerlo" = .ok false ∧ isBrivla .linked {} s%"briiymle" = .ok true ∧ isBrivla .linked {} s%"plukauaiymle" = .ok true ∧
    isBrivla .linked {} s%"plukauai'ymle" = .ok true ∧ isBrivla .linked {} s%"rai'y'ismu" = .ok true ∧ isBrivla .linked {} s%"torai'y'ismu" = .ok false ∧
    isBrivla .linked {} s%"toiysmu" = .ok false := by decide +kernel

end Jvotci
