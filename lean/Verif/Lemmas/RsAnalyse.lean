import Verif.RsAnalyse
import Verif.SpecJs
import Verif.Lemmas.RsApi
import Verif.Props.Exceptions
import Verif.Props.Score

/-!
# Lemmas: the Rust crate's analysis of lujvo
-/

namespace Jvotci

open Spec

/-- Not two y's. -/
def NotYy (a b : Char) : Prop := ¬ (a = 'y' ∧ b = 'y')

theorem no_y_adj {p : Str} (h : 'y' ∉ p) : AdjAll NotYy p := by
  rintro a b ⟨u, v, e⟩ ⟨rfl, -⟩
  exact h (by rw [e]; simp)

theorem hyphen_adj {p : Str} (hp : p.length ≤ 1 ∨ p = s%"'y") : AdjAll NotYy p := by
  rcases hp with hp | rfl
  · match p, hp with
    | [], _ => exact adjAll_nil
    | [_], _ => exact adjAll_single
  · exact adjAll_cons.2 ⟨by rintro ⟨h, -⟩; exact absurd h (by decide), adjAll_single⟩

theorem link_adj {y : YHyphens} {mz : Bool} {p q : Str} (h : Link y mz p q) : AdjAll NotYy q ∧ (q.head? = some 'y' → p.getLast? ≠ some 'y') ∧
    (q.head? = some '\'' → q = s%"'y") ∧ q ≠ [] := by
  have hr : ∀ {q : Str}, Rafsi mz q → q.head? ≠ some 'y' ∧ q.head? ≠ some '\'' := by
    intro q hq
    constructor <;> (intro e; have := rafsi_head? hq e; revert this; decide)
  have hl : ∀ {p : Str}, Rafsi mz p → p.getLast? ≠ some 'y' := by
    intro p hp e
    exact rafsi_no_y hp (List.mem_of_getLast? e)
  have hn : ∀ {q : Str}, Rafsi mz q → q ≠ [] := by
    rintro q hq rfl
    exact absurd (rafsi_length hq).1 (by decide)
  cases h with
  | rafsi h1 h2 => exact ⟨no_y_adj (rafsi_no_y h2), fun e => absurd e (hr h2).1, fun e => absurd e (hr h2).2, hn h2⟩
  | y h1 => exact ⟨hyphen_adj (by decide), fun _ => hl h1, by decide, by decide⟩
  | apostropheY _ h1 => exact ⟨hyphen_adj (by decide), fun e => absurd e (by decide), by decide, by decide⟩
  | rOrN _ h1 _ h2 =>
    simp at h2
    rcases h2 with rfl | rfl <;> exact ⟨hyphen_adj (by decide), fun e => absurd e (by decide), by decide, by decide⟩
  | afterY _ h2 => exact ⟨no_y_adj (rafsi_no_y h2), fun e => absurd e (hr h2).1, fun e => absurd e (hr h2).2, hn h2⟩
  | afterR h2 => exact ⟨no_y_adj (rafsi_no_y h2), fun e => absurd e (hr h2).1, fun e => absurd e (hr h2).2, hn h2⟩
  | afterN h2 => exact ⟨no_y_adj (rafsi_no_y h2), fun e => absurd e (hr h2).1, fun e => absurd e (hr h2).2, hn h2⟩

theorem links_adj {y : YHyphens} {mz : Bool} : ∀ {v : List Str} {p : Str}, AdjAll NotYy p → Links y mz (p :: v) → AdjAll NotYy (p :: v).flatten := by
  intro v
  induction v with
  | nil => intro p hp _; simpa using hp
  | cons q v ih =>
    intro p hp h
    obtain ⟨h1, h2⟩ := links_cons.1 h
    obtain ⟨a1, a2, -, a4⟩ := link_adj h1
    have := ih a1 h2
    rw [List.flatten_cons, adjAll_append]
    refine ⟨hp, this, ?_⟩
    intro a b ha hb
    rintro ⟨rfl, rfl⟩
    have : q.head? = some 'y' := by
      cases q with
      | nil => exact absurd rfl a4
      | cons c q => simpa using hb
    exact a2 this ha

theorem rafsi_ccv_of {mz : Bool} {p r u : Str} {a b x : Char} (h : Rafsi mz p) (e : p ++ r = a :: b :: x :: '\'' :: u) (hb : Consonant b) :
    p = [a, b, x] := by
  have hap : ¬ Consonant '\'' := by decide
  cases h with
  | cvv _ h _ => simp at e; exact absurd hb (fun k => not_vowel_consonant h (e.2.1 ▸ k))
  | cvhv _ h _ => simp at e; exact absurd hb (fun k => not_vowel_consonant h (e.2.1 ▸ k))
  | cvc _ h _ => simp at e; exact absurd hb (fun k => not_vowel_consonant h (e.2.1 ▸ k))
  | cvcc _ h _ => simp at e; exact absurd hb (fun k => not_vowel_consonant h (e.2.1 ▸ k))
  | ccv hp hv' => simp at e; simp [e]
  | ccvc hp hv' hc => simp at e; exact absurd (e.2.2.2.1 ▸ hc) hap
  | gismu h =>
    cases h with
    | cvccv _ h _ => simp at e; exact absurd hb (fun k => not_vowel_consonant h (e.2.1 ▸ k))
    | ccvcv _ _ h _ => simp at e; exact absurd (e.2.2.2.1 ▸ h) hap

theorem rafsi_cvv_of {mz : Bool} {p r u : Str} {a b c : Char} (h : Rafsi mz p) (e : p ++ r = a :: b :: c :: u) (hb : Vowel b) (hc : Vowel c) :
    p = [a, b, c] := by
  have hap : ¬ Vowel '\'' := by decide
  cases h with
  | cvv _ h _ => simp at e; simp [e]
  | cvhv _ h _ => simp at e; exact absurd (e.2.2.1 ▸ hc) hap
  | cvc _ h h' => simp at e; exact absurd (e.2.2.1 ▸ h') (not_vowel_consonant hc)
  | cvcc _ h h' => simp at e; exact absurd (e.2.2.1 ▸ h'.1) (not_vowel_consonant hc)
  | ccv hp hv' => simp at e; exact absurd (e.2.1 ▸ (initial_consonants hp).2) (not_vowel_consonant hb)
  | ccvc hp hv' hc => simp at e; exact absurd (e.2.1 ▸ (initial_consonants hp).2) (not_vowel_consonant hb)
  | gismu h =>
    cases h with
    | cvccv _ h h' => simp at e; exact absurd (e.2.2.1 ▸ h'.1) (not_vowel_consonant hc)
    | ccvcv hp _ h _ => simp at e; exact absurd (e.2.1 ▸ (initial_consonants hp).2) (not_vowel_consonant hb)

theorem two_pieces {ps : List Str} {p : Str} (hp : ps.head? = some p) (h2 : 2 ≤ ps.length) : ∃ q v, ps = p :: q :: v := by
  match ps, hp, h2 with
  | p' :: q :: v, hp, _ => simp at hp; exact ⟨q, v, by rw [hp]⟩

/-- The pieces of a lujvo make a plain word. -/
theorem lujvoPieces_plain {s : Settings} {ps : List Str} (h : LujvoPieces s ps) : PlainWord ps.flatten := by
  have hr := h.reading
  obtain ⟨p, hp, hr1⟩ := hr.first
  have h2 := h.two
  obtain ⟨q, v, rfl⟩ := two_pieces hp h2
  refine ⟨fun d hd => ?_, ?_, ?_⟩
  · have := lujvo_letters h d hd
    unfold Letter
    rcases this with h | h | h | h
    · exact .inl h
    · exact .inr (.inl h)
    · simp [h]
    · simp [h]
  · rintro ⟨u, t, e⟩
    exact links_adj (no_y_adj (rafsi_no_y hr1)) hr.links 'y' 'y' ⟨u, t, by rw [e]; simp⟩ ⟨rfl, rfl⟩
  · rintro a b x u e ⟨ha, hb, hx⟩
    obtain ⟨-, -, h3, h4⟩ := link_adj (links_cons.1 hr.links).1
    have hl : p = [a, b, x] := by
      rw [List.flatten_cons] at e
      exact rafsi_ccv_of hr1 e hb
    subst hl
    cases q with
    | nil => exact h4 rfl
    | cons d q =>
      have hd : d = '\'' := by simp at e; exact e.1
      rw [h3 (by rw [hd]; rfl)] at hr
      exact hr.start _ _ _ _ hb rfl

theorem rs_analyse_gismu {O : RsOther} {n : Nat} {s : Settings} {w : Str} {ps : List Str} (hd : ¬ StrayDot w) :
    analyseBrivla .linked s w = .ok (.gismu, ps) ↔ rsAnalyseBrivla O (n + 2) s w = .ok (.gismu, ps) := by
  have hno : ∀ {k : RsKind}, k.type ≠ .gismu := by intro k; cases k <;> decide
  unfold rsAnalyseBrivla
  rw [(rsNormalise_iff w).2 hd]
  cases hc : (reading w).getLast? with
  | none =>
    simp at hc
    rw [hc]
    constructor
    · intro h
      rw [analyseBrivla_program] at h
      obtain ⟨m, hm, h⟩ := analyseR_ok h
      rw [(normalise_ok hm).2, hc] at h
      generalize ht : BType.gismu = t at h
      cases h with
      | gismu hl => cases hl
      | zihevla => cases ht
      | parts => split at ht <;> cases ht
      | kaha => split at ht <;> cases ht
    · intro h
      cases h
  | some c =>
    have hne : (reading w).isEmpty = false := by
      cases hw : reading w with
      | nil => rw [hw] at hc; cases hc
      | cons => rfl
    have hwne : w ≠ [] := by rintro rfl; simp [reading] at hc
    simp only [hne, rsBack_of hc, rsIsConsonant_eq, rsIsVowel_eq, rsIsGismu_eq, Bool.false_eq_true, if_false]
    have hrest : ∀ {r : Except RsErr (RsKind × List Str)}, (match r with
        | .ok (k, parts) => Except.ok (k.type, parts)
        | .error e => Except.error e) ≠ (.ok (.gismu, ps) : Except RsErr _) := by
      rintro (e | ⟨k, x⟩) h
      · cases h
      · injection h with h
        exact hno (congrArg Prod.fst h)
    constructor
    · intro h
      rw [analyseBrivla_program] at h
      obtain ⟨m, hm, h⟩ := analyseR_ok h
      have hm := (normalise_ok hm).2
      subst hm
      generalize ht : BType.gismu = t at h
      cases h with
      | zihevla => cases ht
      | parts => split at ht <;> cases ht
      | kaha => split at ht <;> cases ht
      | gismu hl hv hg =>
        rw [hc] at hl
        cases hl
        have hcc := not_consonant_of_vowel hv
        simp [hcc, hv, hg]
    · intro h
      rw [analyseBrivla_program]
      unfold analyseR
      rw [normalise_eq hwne, ok_bind]
      unfold analyseNorm
      obtain ⟨c0, hc0⟩ : ∃ c0, (reading w).head? = some c0 := by
        cases hw : reading w with
        | nil => rw [hw] at hc; cases hc
        | cons c0 t => exact ⟨c0, rfl⟩
      simp only [hc0, hc]
      split at h
      · cases h
      rename_i h1
      rw [if_neg (by simpa using h1)]
      split at h
      · cases h
      rename_i h2
      rw [if_neg h2]
      split at h
      · rename_i h3
        rw [if_pos h3]
        injection h with h
        rw [h]
      · exfalso
        split at h
        · injection h with h
          have := congrArg Prod.fst h
          dsimp only at this
          split at this <;> cases this
        · exact hrest h
        · exact hrest h
        · exact hrest h
        · cases h

theorem rs_analyse_lujvo {O : RsOther} {n : Nat} {s : Settings} {w : Str} {ps : List Str} (hd : ¬ StrayDot w) (hlen : (reading w).length < 180000)
    (hp : PlainWord (reading w)) :
    analyseBrivla .linked s w = .ok (.lujvo, ps) ↔ rsAnalyseBrivla O (n + 2) s w = .ok (.lujvo, ps) := by
  have hno : ∀ {k : RsKind}, k.type ≠ .lujvo := by intro k; cases k <;> decide
  unfold rsAnalyseBrivla
  rw [(rsNormalise_iff w).2 hd]
  constructor
  · intro h
    obtain ⟨e, h1⟩ := C41_only_lujvo h
    obtain ⟨c, hc, hv⟩ := h1.vowel
    rw [e] at hc
    rw [analyseBrivla_program] at h
    obtain ⟨m, hm, h⟩ := analyseR_ok h
    have hm := (normalise_ok hm).2
    subst hm
    generalize ht : BType.lujvo = t at h
    have hcv := (isVowel_iff c).2 hv
    have hcc := not_consonant_of_vowel hcv
    cases h with
    | gismu => cases ht
    | zihevla => cases ht
    | parts => split at ht <;> cases ht
    | @kaha d _ hl _ hg _ hk =>
      rw [hc] at hl
      cases hl
      have hne : (reading w).isEmpty = false := by
        cases hw : reading w with
        | nil => rw [hw] at hc; cases hc
        | cons => rfl
      simp only [hne, rsBack_of hc, rsIsConsonant_eq, rsIsVowel_eq, rsIsGismu_eq, hcc, hcv, hg hcv, Bool.false_eq_true, if_false, Bool.not_true, Bool.and_false, Bool.false_and]
      rcases near_jvokaha_any (A := O.inner) (n := n) (y := s.yHyphens) (co := s.consonants) (gl := s.glides) (mz := s.allowMz)
        (plain_cuttable hp hc hv) (plain_not_ccvhy hp) hc hv hlen with ⟨arr, h1, h2⟩ | ⟨e, e', h1, h2, h3, h4⟩
      · rw [hk] at h1
        cases h1
        rw [h2]
      · rw [hk] at h1
        cases h1
  · intro h
    dsimp only at h
    cases hc : (reading w).getLast? with
    | none => simp at hc; rw [hc] at h; cases h
    | some c =>
      have hne : (reading w).isEmpty = false := by
        cases hw : reading w with
        | nil => rw [hw] at hc; cases hc
        | cons => rfl
      have hwne : w ≠ [] := by rintro rfl; simp [reading] at hc
      simp only [hne, rsBack_of hc, rsIsConsonant_eq, rsIsVowel_eq, rsIsGismu_eq, Bool.false_eq_true, if_false] at h
      rw [analyseBrivla_program]
      unfold analyseR
      rw [normalise_eq hwne, ok_bind]
      unfold analyseNorm
      obtain ⟨c0, hc0⟩ : ∃ c0, (reading w).head? = some c0 := by
        cases hw : reading w with
        | nil => rw [hw] at hc; cases hc
        | cons c0 t => exact ⟨c0, rfl⟩
      simp only [hc0, hc]
      split at h
      · cases h
      rename_i h1
      rw [if_neg h1]
      split at h
      · cases h
      rename_i h2
      rw [if_neg h2]
      split at h
      · cases h
      rename_i h3
      rw [if_neg h3]
      cases hcc : isConsonant c with
      | true =>
        rw [hcc] at h
        have hrest : ∀ {r : Except RsErr (RsKind × List Str)}, (match r with
            | .ok (k, parts) => Except.ok (k.type, parts)
            | .error e => Except.error e) ≠ (.ok (.lujvo, ps) : Except RsErr _) := by
          rintro (e | ⟨k, x⟩) h
          · cases h
          · injection h with h
            exact hno (congrArg Prod.fst h)
        exfalso
        split at h
        · cases h
        · exact hrest h
        · exact hrest h
        · exact hrest h
        · cases h
      | false =>
        have hv : Vowel c := (isVowel_iff c).1 (by rw [hcc] at h1; simpa using h1)
        rcases near_jvokaha_any (A := O.inner) (n := n) (y := s.yHyphens) (co := s.consonants) (gl := s.glides) (mz := s.allowMz)
          (plain_cuttable hp hc hv) (plain_not_ccvhy hp) hc hv hlen with ⟨arr, k1, k2⟩ | ⟨e, e', k1, k2, k3, k4⟩
        · rw [k2, hcc] at h
          rw [k1]
          dsimp only at h ⊢
          injection h with h
          rw [h]
        · exfalso
          rw [k2] at h
          rcases k4 with rfl | rfl
          all_goals
            cases hr : O.rest s (isConsonant c) (reading w) with
            | error e => simp only [hr] at h; cases h
            | ok r =>
              simp only [hr] at h
              injection h with h
              exact hno (congrArg Prod.fst h)

theorem rs_pieceScore {mz : Bool} {p : Str} (h : Rafsi mz p ∨ Hyphen p) :
    rsPieceScore p = pieceScore p + (if OneLetterHyphen p then 100 else 0) := by
  rcases h with h | h
  · have h3 := (rafsi_length h).1
    have hn : ¬ OneLetterHyphen p := by
      rintro (rfl | rfl | rfl) <;> exact absurd h3 (by decide)
    have h1 : [s%"y", s%"n", s%"r", []].contains p = false := by
      rw [Bool.eq_false_iff]
      intro hc
      simp at hc
      rcases hc with rfl | rfl | rfl | rfl <;> exact absurd h3 (by decide)
    have h2 : ¬ (p = s%"y" ∨ p = s%"n" ∨ p = s%"r" ∨ p = []) := by
      rintro (rfl | rfl | rfl | rfl) <;> exact absurd h3 (by decide)
    unfold rsPieceScore pieceScore
    rw [if_neg hn, h1, if_neg h2]
    simp only [Bool.false_eq_true, if_false, Int.add_zero]
    rw [rsScore_iff]
    have := rafsi_strip h (suf := []) rfl
    rw [List.append_nil] at this
    rw [this]
    exact rafsi_not_odd h
  · unfold Hyphen at h
    simp at h
    rcases h with rfl | rfl | rfl | rfl | rfl | rfl <;> decide

theorem rs_tiebreak_lujvo {s : Settings} {ps : List Str} (h : LujvoPieces s ps) : rsTiebreak ps.flatten = tiebreak ps.flatten := by
  unfold rsTiebreak tiebreak
  simp only [rsRafsiTarmi_safe (.inl rfl)]
  by_cases hc : ¬ rafsiTarmi (slice ps.flatten 0 3) = .cvv
  · rw [if_neg (fun k => hc k.1), if_neg (fun k => hc k.1)]
  replace hc := Classical.not_not.1 hc
  rw [(rsRafsiTarmi_iff _).2]
  intro ho
  have hr := h.reading
  obtain ⟨p, hp, hr1⟩ := hr.first
  have h2 := h.two
  obtain ⟨q, v, rfl⟩ := two_pieces hp h2
  obtain ⟨a, b, c, e, ha, hb, hcv⟩ := tarmi_cvv.1 hc
  have h6 := pieces_long hr h2
  obtain ⟨u, e⟩ : ∃ u, (p :: q :: v).flatten = a :: b :: c :: u := by
    generalize (p :: q :: v).flatten = w at e h6
    match w, e, h6 with
    | x :: y :: z :: u, e, _ => simp [slice] at e; exact ⟨u, by simp [e]⟩
  obtain rfl : p = [a, b, c] := by
    rw [List.flatten_cons] at e
    exact rafsi_cvv_of hr1 e ((isVowel_iff b).1 hb) ((isVowel_iff c).1 hcv)
  have ed : ([a, b, c] :: q :: v).flatten.drop 3 = (q :: v).flatten := by simp
  rw [ed] at ho
  obtain ⟨l, hl, hlv⟩ := h.vowel
  obtain ⟨z, hz, hzr⟩ := hr.last
  have hl' : (q :: v).flatten.getLast? = some l := by
    have h3 : 3 ≤ (q :: v).flatten.length := by simp at h6 ⊢; omega
    rw [List.flatten_cons, List.getLast?_append] at hl
    cases hg : (q :: v).flatten.getLast? with
    | none => simp only [List.getLast?_eq_none_iff] at hg; rw [hg] at h3; simp at h3
    | some d => rw [hg] at hl; simpa using hl
  generalize hw : (q :: v).flatten = w at ho hl'
  cases ho with
  | hyphen => simp at hl'; rw [← hl'] at hlv; revert hlv; decide
  | cvcc _ _ _ hk => simp at hl'; rw [← hl'] at hlv; exact not_vowel_consonant hlv hk
  | ccvc _ _ _ hk => simp at hl'; rw [← hl'] at hlv; exact hk hlv
  | three k1 k2 k3 k4 =>
    have hzl := (rafsi_length hzr).1
    have hzs : z ∈ q :: v := by
      rw [List.getLast?_cons_cons] at hz
      exact List.mem_of_getLast? hz
    have hlen : (q :: v).flatten.length = 3 := by rw [hw]; rfl
    rcases List.mem_cons.1 hzs with rfl | hzv
    · rw [List.flatten_cons] at hw hlen
      have : v.flatten = [] := by
        rw [List.length_append] at hlen
        exact List.eq_nil_of_length_eq_zero (by omega)
      rw [this, List.append_nil] at hw
      rw [hw] at hzr
      exact rafsi_not_odd hzr (.three k1 k2 k3 k4)
    · obtain ⟨-, -, -, h4⟩ := link_adj (links_cons.1 hr.links).1
      have hq : 1 ≤ q.length := List.length_pos_iff.2 h4
      have : z.length ≤ v.flatten.length := (List.sublist_flatten_of_mem hzv).length_le
      rw [List.flatten_cons, List.length_append] at hlen
      omega

theorem rs_selrafsi {O : RsOther} {n : Nat} {s : Settings} {pieces : List Str} : ∀ (i : Nat) (ps : List Str),
    (∀ p ∈ ps, ¬ Hyphen p → searchSelrafsi p ≠ none) → selrafsiFrom .linked s pieces i ps = .ok (rsSelrafsiFrom O n s pieces i ps)
  | _, [], _ => rfl
  | i, p :: ps, h => by
    have ih := fun i => rs_selrafsi (O := O) (n := n) (s := s) (pieces := pieces) i ps fun q hq => h q (by simp [hq])
    unfold selrafsiFrom rsSelrafsiFrom
    by_cases hh : (HYPHENS.contains p || p.isEmpty) = true
    · rw [if_pos hh, if_pos hh]
      exact ih _
    · rw [if_neg hh, if_neg hh]
      have hn : ¬ Hyphen p := by
        intro k
        apply hh
        unfold Hyphen at k
        simp at k
        rcases k with rfl | rfl | rfl | rfl | rfl | rfl <;> decide
      obtain ⟨g, hg⟩ := Option.ne_none_iff_exists'.1 (h p (by simp) hn)
      unfold formatPiece rsFormatPiece
      rw [rsSearchSelrafsi_eq, hg]
      dsimp only
      rw [ok_bind, ih, ok_bind]

theorem rs_scores {mz : Bool} : ∀ {ps : List Str}, (∀ p ∈ ps, Rafsi mz p ∨ Hyphen p) →
    (ps.map rsPieceScore).sum = (ps.map pieceScore).sum + 100 * (ps.countP (fun p => decide (OneLetterHyphen p)) : Int)
  | [], _ => rfl
  | p :: ps, h => by
    rw [List.map_cons, List.map_cons, List.sum_cons, List.sum_cons, rs_scores fun q hq => h q (by simp [hq]), rs_pieceScore (h p (by simp)),
      List.countP_cons]
    by_cases hp : OneLetterHyphen p
    · rw [if_pos hp, if_pos (by simpa using hp)]
      omega
    · rw [if_neg hp, if_neg (by simpa using hp)]
      omega

end Jvotci
