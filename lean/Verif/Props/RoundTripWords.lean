import Verif.Props.BackWords
import Verif.Props.RoundTrip
import Verif.Props.Score
import Verif.Props.Exceptions

/-!
# C43 and C35 with zi'evla
-/

namespace Jvotci

open Spec

namespace Spec

/-- The words that `get_veljvo` can name: known gismu and cmavo, zi'evla, and zi'evla without their last vowel, written
with a dash. -/
inductive Named (s : Settings) (v : Str) : Prop
  | known : Known s.allowMz v → Named s v
  | zihevla : WordType .linked s v .zihevla → Named s v
  | cut {x} : v = x ++ s%"-" → WordType .linked s (x ++ s%"a") .zihevla → Named s v

end Spec

theorem table_gismu {v : Str} {rs : List Str} (h : (v, rs) ∈ RAFSI_LIST) (h5 : v.length = 5) (hq : '\'' ∉ v) : Gismu false v ∨ v = s%"Pingo" := by
  have : RAFSI_LIST.all (fun e => !(e.1.length == 5 && !e.1.contains '\'') || isGismu false e.1 || e.1 == s%"Pingo") = true := by decide +kernel
  have := List.all_eq_true.1 this _ h
  simp [h5, hq] at this
  exact this.imp isGismu_iff.1 id

/-- What has no CLL shape is nobody's rafsi. -/
theorem search_other {x : Str} (hx : Clean x) (h0 : shapeScore x = 0) : searchSelrafsi x = none := by
  cases hs : searchSelrafsi x with
  | none => rfl
  | some g =>
    exfalso
    rcases searchSelrafsi_some hs with ⟨rs, h1, h2⟩ | ⟨h4, hq, -, u, rs, hu, rfl, h⟩
    · exact shape_rafsi h0 (isValidRafsi_iff.1 (table_shapes _ h1 _ h2).2)
    · have hvq : '\'' ≠ u := fun e => by subst e; revert hu; decide
      rcases table_gismu h (by simp [h4]) (by simp [hq, hvq]) with h | h
      · exact shape_rafsi h0 (gismu_cut h).1
      · have : x = s%"Ping" := by
          have := congrArg List.dropLast h
          simpa using this
        subst this
        have := hx.letters 'P' (by simp)
        revert this
        decide

theorem zihevla_brivla {s : Settings} {e : Bool} {x : Str} (hlen : x.length < 10 ^ 94)
    (h : ∃ ps, analyseBrivla .linked { yHyphens := s.yHyphens, expRafsi := e, allowMz := s.allowMz } x = .ok (.zihevla, ps)) :
    isBrivla .linked { yHyphens := s.yHyphens, allowMz := s.allowMz } x = .ok true := by
  obtain ⟨ps, h⟩ := h
  obtain ⟨h1, h2, h3, h4, h5, h6⟩ := (C45_zihevla hlen).1 h
  have : analyseBrivla .linked { yHyphens := s.yHyphens, allowMz := s.allowMz } x = .ok (.zihevla, ps) :=
    (C45_zihevla hlen).2 ⟨h1, h2, h3, fun qs hq => h4 qs ⟨hq.1, hq.2, hq.3, hq.4, hq.5, hq.6, hq.7, hq.8⟩, h5, h6⟩
  unfold isBrivla
  rw [this]
  rfl

/-- How a slot is shown. -/
def ShownAs (s : Settings) (z : Slot) (v : Str) : Prop :=
  searchSelrafsi z.rafsi = some v ∨
    searchSelrafsi z.rafsi = none ∧
    (z.kind = .long ∧ v = z.rafsi ∧ isBrivla .linked { yHyphens := s.yHyphens, allowMz := s.allowMz } z.rafsi = .ok true ∨
    z.kind = .short ∧ v = z.rafsi ++ s%"-" ∧ isBrivla .linked { yHyphens := s.yHyphens, allowMz := s.allowMz } (z.rafsi ++ s%"a") = .ok true)

theorem gismu_brivla {b : Build} {s : Settings} {x : Str} (hg : Gismu s.allowMz x) :
    isBrivla b { yHyphens := s.yHyphens, allowMz := s.allowMz } x = .ok true := by
  unfold isBrivla
  have hne : x ≠ [] := by rintro rfl; cases hg
  have hrd := reading_letters (rafsi_letters (.gismu hg))
  rw [(C03_gismu_iff (ps := [x])).2 ⟨hne, by rw [hrd]; exact hg, by rw [hrd]⟩]
  rfl

theorem wordType_unique {b : Build} {s : Settings} {v : Str} {t t' : BType} (h : WordType b s v t) (h' : WordType b s v t') : t = t' := by
  obtain ⟨ps, h⟩ := h
  obtain ⟨ps', h'⟩ := h'
  rw [h] at h'
  cases h'
  rfl

theorem wordType_nodash {b : Build} {s : Settings} {v : Str} (h : WordType b s v .zihevla) : '-' ∉ v ∧ 2 ≤ v.length := by
  obtain ⟨ps, h⟩ := h
  obtain ⟨n, hn, ha⟩ := analyseR_ok h
  obtain ⟨-, rfl⟩ := normalise_ok hn
  obtain ⟨hc, -, h4, -⟩ := accepted_clean ha (.inr rfl)
  constructor
  · intro hd
    have : '-' ∈ reading v := by
      have key : ∀ {u : Str}, '-' ∈ u → '-' ∈ u.flatMap readChar := fun h => List.mem_flatMap.2 ⟨'-', h, by decide⟩
      unfold reading
      split
      · exact key (by simpa using hd)
      · exact key hd
    have := hc.letters _ this
    revert this
    decide
  · match v, h4 with
    | [], h4 => simp [reading] at h4
    | [a], h4 =>
      exfalso
      have : ∀ c, (readChar c).length ≤ 2 := by
        intro c
        rcases readChar_cases c with h | ⟨d, h⟩ | ⟨d, h, -⟩ <;> rw [h] <;> simp
      have h2 := this a
      unfold reading at h4
      split at h4
      · rename_i cs e
        cases e
        simp at h4
      · simp at h4
        omega
    | a :: b :: v, _ => simp

theorem shown_of {s : Settings} {z : Slot} {v : Str} (hm : NoMzWord s v) (hn : Named s v) (hu : Usable .linked s v z.rafsi z.kind)
    (hun : UnitOf s z.rafsi z.kind) (hx : Clean z.rafsi) (hlen : z.rafsi.length + 1 < 10 ^ 94) : ShownAs s z v := by
  have hcl : ∀ {x : Str}, ZWhole s x → x = z.rafsi → searchSelrafsi z.rafsi = none := by
    rintro x hz rfl
    exact search_other hx (zwhole_shape hz)
  cases hn with
  | known hk =>
    rcases usable_search hk hu with h | ⟨rfl, hg, hkl, hs⟩
    · exact .inl h
    · refine .inr ⟨hs, .inl ⟨?_, rfl, gismu_brivla hg⟩⟩
      have h0 : shapeScore z.rafsi ≠ 0 := fun h => shape_rafsi h (.gismu hg)
      generalize z.kind = k at hun
      cases hun with
      | rafsi _ _ => exact hkl
      | whole h => rfl
      | cut h => exact absurd (zcut_shape h) h0
  | zihevla hw =>
    have hd : v.getLast? ≠ some '-' := fun h => (wordType_nodash hw).1 (List.mem_of_getLast? h)
    generalize hkk : z.kind = k at hu
    generalize hrr : z.rafsi = x at hu
    cases hu with
    | listed _ h1 h2 => exact .inl (by rw [hrr]; exact (C29_rafsi_table h1 h2).2.2.2)
    | stem _ h _ => cases wordType_unique hw h
    | word _ _ =>
      have hz : ZWhole s v := by
        obtain ⟨ps, hw⟩ := hw
        exact zwhole_of (noMzWord_zihevla hm (reading_asRead (clean_asRead (hrr ▸ hx))) (by rw [← hrr]; omega) hw) (clean_asRead (hrr ▸ hx)) (by rw [← hrr]; omega) hw
      refine .inr ⟨hcl hz hrr.symm, .inl ⟨hkk, hrr.symm, ?_⟩⟩
      rw [hrr]
      exact zihevla_brivla (by rw [← hrr]; omega) hw
    | rafsi h => exact absurd (dashed_last h) hd
    | zihevla h => exact absurd (dashed_last h) hd
    | experimental h => exact absurd (dashed_last h) hd
    | cut h => exact absurd (by rw [h, List.replicate_succ', ← List.append_assoc, List.getLast?_concat]) hd
  | @cut x e hw =>
    subst e
    have hxd := wordType_nodash hw
    have hdash : '-' ∉ x := fun h => hxd.1 (by simp [h])
    have hlast : (x ++ s%"-").getLast? = some '-' := by simp
    have hhead : (x ++ s%"-").head? ≠ some '-' := by
      cases x with
      | nil => simp at hxd
      | cons a x => simp at hdash ⊢; exact fun h => hdash.1 h.symm
    generalize hkk : z.kind = k at hu
    generalize hrr : z.rafsi = x' at hu
    cases hu with
    | listed h => exact absurd hlast h
    | stem h => exact absurd hlast h
    | word h => exact absurd hlast h
    | rafsi h => exact absurd (dashed_head h) hhead
    | zihevla h => exact absurd (dashed_head h) hhead
    | experimental h => exact absurd (dashed_head h) hhead
    | @cut _ j e hd2 _ hj =>
      have : x' = x := by
        have h1 := congrArg (List.takeWhile (· != '-')) e
        rw [List.takeWhile_append_of_pos (fun c hc => by simp only [bne_iff_ne]; rintro rfl; exact hdash hc),
          List.takeWhile_append_of_pos (fun c hc => by simp only [bne_iff_ne]; rintro rfl; exact hd2 hc)] at h1
        simpa [List.replicate_succ] using h1.symm
      subst this
      have hz : ZCut s x' := by
        obtain ⟨ps, hw⟩ := hw
        exact zcut_of (noMzWord_part (u := []) hm (by simp)) (clean_asRead (hrr ▸ hx)) (by rw [← hrr]; omega) hw (clean_apos (hrr ▸ hx)) hj
      refine .inr ⟨?_, .inr ⟨hkk, by rw [hrr], ?_⟩⟩
      · exact search_other hx (hrr ▸ zcut_shape hz)
      · rw [hrr]
        exact zihevla_brivla (by simp; rw [← hrr]; omega) hw

theorem selrafsi_gaps {s : Settings} {cm : Bool} {pieces : List Str} : ∀ {zs : List Slot} {l : List (Str × Str)} {vs : List Str} {i : Nat}, Gaps cm zs l →
    (cm = true → ∀ z, zs.getLast? = some z → z.kind = .short → isBrivla .linked { yHyphens := s.yHyphens, allowMz := s.allowMz } z.rafsi = .ok false) →
    (∀ p ∈ l, (Clean p.1 ∧ ∃ c ∈ p.1, Vowel c) ∧ Gap p.2) → All2 (ShownAs s) zs vs → pieces.drop i = flat l →
    selrafsiFrom .linked s pieces i (flat l) = .ok vs := by
  have hnh : ∀ {x : Str}, Clean x → (∃ c ∈ x, Vowel c) → (HYPHENS.contains x || x.isEmpty) = false := by
    rintro x hx ⟨c, hc, hv⟩
    rw [Bool.or_eq_false_iff]
    constructor
    · cases hh : HYPHENS.contains x with
      | false => rfl
      | true =>
        exfalso
        rw [List.contains_iff_mem] at hh
        have key : ∀ x ∈ HYPHENS, ∀ c ∈ x, ¬ Vowel c := by decide
        exact key x hh c hc hv
    · cases x with
      | nil => cases hc
      | cons => rfl
  intro zs l vs i hG
  induction hG generalizing vs i with
  | @one z hk =>
    intro hshl hc hs hp
    cases hs with
    | cons hs hs' =>
      cases hs'
      rename_i v
      obtain ⟨⟨hx, hv⟩, -⟩ := hc (z.rafsi, []) (by simp)
      rw [flat_bare, flat_nil] at hp ⊢
      have hl : pieces.length = i + 1 := by
        have := congrArg List.length hp
        simp at this
        omega
      have hf : formatPiece .linked s pieces i z.rafsi = .ok v := by
        unfold formatPiece
        rcases hs with hs | ⟨hs, ⟨-, rfl, hb⟩ | ⟨h, rfl, hb⟩⟩
        · rw [hs]
        · rw [hs]
          have h2 : ¬ i + 2 < pieces.length := by omega
          simp only [h2, if_false, ok_bind, hb, Bool.false_eq_true, if_true]
        · cases cm with
          | false => exact absurd h (hk rfl)
          | true =>
            rw [hs]
            have h2 : ¬ i + 2 < pieces.length := by omega
            have hf := hshl rfl z rfl h
            have hl' : i + 1 = pieces.length := hl.symm
            simp only [h2, if_false, ok_bind, hb, hf, hl', Bool.false_eq_true, if_true]
      unfold selrafsiFrom
      rw [hnh hx hv]
      simp only [Bool.false_eq_true, if_false, hf, selrafsiFrom, ok_bind]
  | @cons z zs g t hlong hshort hG hne ih =>
    intro hshl hc hs hp
    cases hs with
    | @cons _ v _ vs hs hs' =>
      obtain ⟨⟨hx, hv⟩, hg⟩ := hc (z.rafsi, g) (by simp)
      have ih := fun i => ih (vs := vs) (i := i) (fun hc q hq => hshl hc q (by
        cases zs with
        | nil => cases hq
        | cons a zs => rw [List.getLast?_cons_cons]; exact hq)) (fun p hp => hc p (List.mem_cons_of_mem _ hp)) hs'
      have htl : 0 < (flat t).length := by
        cases hG with
        | one _ => simp [flat_bare]
        | cons _ _ _ _ => rw [flat_cons]; unfold piecesOf; split <;> simp
      by_cases hn : g = []
      · subst hn
        rw [flat_bare] at hp ⊢
        have hf : formatPiece .linked s pieces i z.rafsi = .ok v := by
          unfold formatPiece
          rcases hs with hs | ⟨hs, ⟨h, -⟩ | ⟨h, -⟩⟩
          · rw [hs]
          · have := hlong h; cases this
          · have := hshort h; cases this
        unfold selrafsiFrom
        rw [hnh hx hv]
        have := ih (i + 1) (by rw [← List.drop_drop, hp]; rfl)
        simp only [Bool.false_eq_true, if_false, hf, this, ok_bind]
      · rw [flat_hyphen hn] at hp ⊢
        have hhh : (HYPHENS.contains g || g.isEmpty) = true := by
          rw [hyphens_iff.2 (hg.resolve_left hn)]; rfl
        have h1 : pieces[i + 1]? = some g := by
          rw [← List.getElem?_drop, hp]; rfl
        have h2 : i + 2 < pieces.length := by
          have := congrArg List.length hp
          simp at this
          omega
        have hf : formatPiece .linked s pieces i z.rafsi = .ok v := by
          unfold formatPiece
          rcases hs with hs | ⟨hs, ⟨h, rfl, hb⟩ | ⟨h, rfl, hb⟩⟩
          · rw [hs]
          · have hh := hlong h
            cases g with
            | nil => cases hh
            | cons a g =>
              cases hh
              rw [hs]
              simp only [h2, if_true, h1, Option.getD_some]
              have : idx ('\'' :: g) 0 = Except.ok (ε := Err) '\'' := rfl
              rw [this]
              simp only [ok_bind]
              have : ('\'' == 'y') = false := by decide
              simp only [this, Bool.false_eq_true, if_false, ok_bind, hb, if_true]
          · have hh := hshort h
            cases g with
            | nil => cases hh
            | cons a g =>
              cases hh
              rw [hs]
              simp only [h2, if_true, h1, Option.getD_some]
              have : idx ('y' :: g) 0 = Except.ok (ε := Err) 'y' := rfl
              rw [this]
              simp only [ok_bind, beq_self_eq_true, if_true, hb]
        unfold selrafsiFrom
        rw [hnh hx hv]
        unfold selrafsiFrom
        rw [hhh]
        have := ih (i + 1 + 1) (by rw [← List.drop_drop, ← List.drop_drop, hp]; rfl)
        simp only [Bool.false_eq_true, if_false, if_true, hf, this, ok_bind]

theorem all2_flip {α β : Type} {r : α → β → Prop} {l : List α} {l' : List β} (h : All2 r l l') : All2 (fun b a => r a b) l' l := by
  induction h with
  | nil => exact .nil
  | cons h _ ih => exact .cons h ih

theorem represents_slots {b : Build} {s : Settings} {n i : Nat} {vs : List Str} {zs : List Slot} (h : Represents b s n i vs zs) :
    All2 (fun z v => Usable b s v z.rafsi z.kind) zs vs := by
  induction h with
  | nil => exact .nil
  | cons hu _ _ ih => exact .cons hu ih

/-- **C43** (partial). For a tanru of known gismu and cmavo and of zi'evla, whole or without their last vowel,
`get_veljvo` returns the words that `get_lujvo` made the word of. Missing: zi'evla with mz under `allow_mz`, words between dashes, gismu that are not listed, and those that share their first four letters with another one, for which it is false. -/
theorem C43_words_partial {b : Build} {s : Settings} {t : Tanru} {ws : List Str} {w : Str}
    (hws : Words t ws) (hv : ∀ v ∈ ws, Named s (reading v)) (h : getLujvo b s false t = .ok w) (hm : ∀ v ∈ ws, NoMzWord s (reading v))
    (hlen : w.length + 1 < 10 ^ 94) : getVeljvo b s w = .ok (ws.map reading) := by
  obtain ⟨⟨w', sc, ix⟩, h0, hw⟩ := bind_ok h
  cases hw
  dsimp only at hlen ⊢
  clear h
  cases b with
  | pinned => exact absurd h0 ((C34_no_lujvo_at_pinned s t).2 _)
  | linked =>
    rw [hws.list, getLujvoWithAnalytics_program] at h0
    obtain ⟨vs, hvs, h⟩ := bind_ok h0
    cases mapM_normalise_ok hvs
    have hr : ∀ v ∈ ws.map reading, (∀ d ∈ v, readChar d = [d]) ∧ Named s v := by
      intro v hvm
      obtain ⟨w, hw, rfl⟩ := List.mem_map.1 hvm
      exact ⟨fun d hd => reading_chars hd, hv w hw⟩
    have hm : ∀ v ∈ ws.map reading, NoMzWord s v := by
      intro v hvm
      obtain ⟨w, hw, rfl⟩ := List.mem_map.1 hvm
      exact hm w hw
    obtain ⟨zs, hy, hrep, hL, hw, hsc, hlay⟩ := found_slots h
    simp only at hw hsc hlay
    have hsl := hlay.slices
    have hclean := layout_clean hlay
    have hzl : ∀ z ∈ zs, z.rafsi.length + 1 < 10 ^ 94 := by
      intro z hz
      have hzm : z.rafsi ∈ ix.map (fun p => slice w' p.1 p.2) := by rw [hsl]; exact List.mem_map_of_mem hz
      obtain ⟨p, hpm, e⟩ := List.mem_map.1 hzm
      have : (slice w' p.1 p.2).length ≤ w'.length := by
        unfold slice
        simp
        omega
      rw [← e]
      omega
    have hnodash : ∀ {v x}, Named s v → ¬ Dashed v x := by
      intro v x hn hd
      have h1 := dashed_head hd
      have h2 := dashed_last hd
      cases hn with
      | known hk =>
        have hcl : ∀ c ∈ v, Vowel c ∨ Consonant c ∨ c = '\'' := by
          rcases hk.form with h | h
          · exact rafsi_letters (.gismu h)
          · exact h.1
        have := hcl _ (List.mem_of_head? h1)
        revert this
        decide
      | zihevla hw => exact (wordType_nodash hw).1 (List.mem_of_head? h1)
      | @cut y e hw =>
        subst e
        cases y with
        | nil => have := (wordType_nodash hw).2; simp at this
        | cons a y =>
          cases h1
          exact (wordType_nodash hw).1 (by simp)
    have hun : ∀ z ∈ zs, UnitOf s z.rafsi z.kind := by
      intro z hz
      obtain ⟨v, hvm, hu⟩ := represents_mem hrep z hz
      exact usable_unit hu (.inl (hm v hvm)) (hr v hvm).1 (hclean _ (List.mem_map_of_mem hz)) (hzl z hz) (fun hd => absurd hd (hnodash (hr v hvm).2))
    obtain ⟨l, ty, hty, ha, -, hgg, hgaps⟩ := glued_back h hrep hL hw hlay hun (by omega)
    have hsh : All2 (ShownAs s) zs (ws.map reading) := by
      refine all2_imp (represents_slots hrep) ?_
      intro z hz v hvm hu
      exact shown_of (hm v hvm) (hr v hvm).2 hu (hun z hz) (hclean _ (List.mem_map_of_mem hz)) (hzl z hz)
    unfold getVeljvo
    rw [ha, ok_bind]
    have ht : ¬ (ty = .gismu ∨ ty = .zihevla) := by rcases hty with rfl | rfl <;> simp
    simp only [ht, if_false]
    exact selrafsi_gaps hgaps (by simp) hgg hsh rfl

example : getLujvo .linked {} false (.str s%"spageti cidja angas- zdani") = .ok s%"spageti'ydja'y'angasyzda" ∧
    getVeljvo .linked {} s%"spageti'ydja'y'angasyzda" = .ok [s%"spageti", s%"cidja", s%"angas-", s%"zdani"] := by decide +kernel

/-- Words that meet the hypothesis. -/
example : Named {} s%"spageti" ∧ Named {} s%"angas-" := by
  refine ⟨.zihevla ⟨[s%"spageti"], ?_⟩, .cut (x := s%"angas") rfl ⟨[s%"angasa"], ?_⟩⟩ <;> decide +kernel

/-- **C35** (partial). For a tanru of words, none between dashes, `score_lujvo` gives a value, and it is related to the
reported one as in `C35_relation_partial`. -/
theorem C35_words_partial {b : Build} {s : Settings} {t : Tanru} {ws : List Str} {w : Str} {sc : Int} {ix : List (Nat × Nat)}
    (hws : Words t ws) (hv : ∀ v ∈ ws, (reading v).head? ≠ some '-') (h : getLujvoWithAnalytics b s false t = .ok (w, sc, ix))
    (hm : ∀ v ∈ ws, NoMzWord s (reading v)) (hlen : w.length + 1 < 10 ^ 94) :
    ∃ ty ps, analyseBrivla b s w = .ok (ty, ps) ∧ getRafsiIndices ps = ix ∧
      ∃ tie tie' : Int, (tie = 1 ∧ TieAt w ix ∨ tie = 0 ∧ ¬ TieAt w ix) ∧ (tie' = 1 ∧ TieShape w ∨ tie' = 0 ∧ ¬ TieShape w) ∧
      scoreLujvo b s w = .ok (sc - 100 * (ps.count s%"y" : Int) + tie - tie') := by
  obtain ⟨ty, ps, hty, ha, hix⟩ := C38_words_partial hws hv h hm hlen
  cases b with
  | pinned => exact absurd h ((C34_no_lujvo_at_pinned s t).2 _)
  | linked =>
    obtain ⟨sc', hsc⟩ := (C44_returns s w).2 ⟨ty, ps, ha, hty.elim .inl (.inr ∘ .inl)⟩
    obtain ⟨tie, tie', h1, h2, e⟩ := C35_relation_partial h ha hix hsc
    exact ⟨_, ps, ha, hix, tie, tie', h1, h2, by rw [hsc, e]⟩

example : getLujvoWithAnalytics .linked {} false (.str s%"spageti cidja angas- zdani") =
    .ok (s%"spageti'ydja'y'angasyzda", 24153, [(0, 7), (9, 12), (15, 20), (21, 24)]) ∧
    scoreLujvo .linked {} s%"spageti'ydja'y'angasyzda" = .ok 24053 := by decide +kernel

end Jvotci
