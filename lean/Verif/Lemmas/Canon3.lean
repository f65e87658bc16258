import Verif.Lemmas.Canon2
import Verif.Lemmas.Total

/-!
# Helper lemmas: the search finds the canonical hyphens
-/

namespace Jvotci

open Spec

theorem vowelCount_append (u v : Str) : vowelCount (u ++ v) = vowelCount u + vowelCount v := by
  simp [vowelCount]

theorem trailing_letters {mz f l : Bool} {x h : Str} {k : Kind} (hk : RK mz x k) (ht : Trailing f l x k h) :
    vowelCount h = 0 ∧ (h = [] ∨ h = s%"y" ∨ h = s%"'" ∨ h = s%"'y") := by
  have : h = [] ∨ h = s%"y" ∨ h = s%"'" ∨ h = s%"'y" := by
    cases hk <;> simp only [Trailing] at ht <;> grind
  refine ⟨?_, this⟩
  rcases this with rfl | rfl | rfl | rfl <;> decide

theorem fits_vowels {mz : Bool} {f : Bool} {xs : List Str} {zs : List Slot} (h : Fits f xs zs) : (∀ x ∈ xs, Rafsi mz x) →
    vowelCount (zs.map Slot.text).flatten = vowelCount xs.flatten ∧
    (zs.map (fun z => shapeScore z.rafsi)).sum = (xs.map shapeScore).sum := by
  induction h with
  | nil => intro _; exact ⟨rfl, rfl⟩
  | @cons f x xs z zs e hk hw _ ih =>
    intro hr
    have hx := hr x (by simp)
    obtain ⟨i1, i2⟩ := ih (fun y hy => hr y (by simp [hy]))
    subst e
    obtain ⟨h, e, ht⟩ := (written_rafsi hx).1 hw
    rw [hk] at ht
    have := (trailing_letters (rafsi_rk hx) ht).1
    refine ⟨?_, by simp [i2]⟩
    simp only [List.map_cons, List.flatten_cons, vowelCount_append, e, i1]
    omega

theorem firstHyphen_letters {s : Settings} {g : Bool} {n : Nat} {y z : Slot} {h : Str} (hf : FirstHyphen s g n y z h) :
    h = [] ∨ h = s%"y" ∨ h = s%"r" ∨ h = s%"n" ∨ h = s%"'y" := by
  rcases hf with ⟨-, h, -⟩ | ⟨-, -, h⟩
  · exact .inr (.inl h)
  · rw [h]
    split
    · split
      · simp
      · split <;> simp
    · simp

theorem legal_vowels {s : Settings} {g : Bool} {xs : List Str} {zs : List Slot} {hy : Str} (hr : ∀ x ∈ xs, Rafsi s.allowMz x)
    (hf : Fits true xs zs) (hL : Legal s g zs hy) : vowelCount (wordOf zs hy) = vowelCount xs.flatten := by
  obtain ⟨y, z, rest, e, hfi⟩ := hL.first
  have h0 : vowelCount hy = 0 := by
    rcases firstHyphen_letters hfi with h | h | h | h | h <;> rw [h] <;> decide
  rw [← (fits_vowels hf hr).1, e]
  simp only [wordOf, vowelCount_append, List.map_cons, List.flatten_cons]
  omega

theorem fits_last {mz : Bool} {f : Bool} {xs : List Str} {zs : List Slot} (h : Fits f xs zs) : (∀ x ∈ xs, Rafsi mz x) →
    ∀ c, (zs.map Slot.text).flatten.getLast? = some c → c ≠ 'y' → c ≠ '\'' → xs.flatten.getLast? = some c := by
  induction h with
  | nil => intro _ c hc; cases hc
  | @cons f x xs z zs e hk hw hz ih =>
    intro hr c hc hy hq
    have hx := hr x (by simp)
    subst e
    obtain ⟨h, e, ht⟩ := (written_rafsi hx).1 hw
    rw [hk] at ht
    have hl := (trailing_letters (rafsi_rk hx) ht).2
    cases hz with
    | nil =>
      simp only [List.map_cons, List.map_nil, List.flatten_cons, List.flatten_nil, List.append_nil, e] at hc ⊢
      rcases hl with rfl | rfl | rfl | rfl
      · rwa [List.append_nil] at hc
      · simp at hc; exact absurd hc.symm hy
      · simp at hc; exact absurd hc.symm hq
      · simp at hc; exact absurd hc.symm hy
    | @cons _ x' xs z' zs e' hk' hw' hz' =>
      have hx' : Rafsi mz x' := hr x' (by simp)
      have ih := ih (fun y hy => hr y (List.mem_cons_of_mem _ hy)) c
      have hne : (((z' :: zs).map Slot.text).flatten) ≠ [] := by
        subst e'
        obtain ⟨h', e', -⟩ := (written_rafsi hx').1 hw'
        have := rafsi_ne hx'
        simp only [List.map_cons, List.flatten_cons, e']
        intro h
        simp at h
        exact this h.1
      rw [List.map_cons, List.flatten_cons, List.getLast?_append] at hc
      rw [List.flatten_cons, List.getLast?_append]
      cases hgl : (((z' :: zs).map Slot.text).flatten).getLast? with
      | none => simp only [List.getLast?_eq_none_iff] at hgl; exact absurd hgl hne
      | some d =>
        rw [hgl] at hc
        simp at hc
        subst hc
        rw [ih hgl hy hq]
        rfl

theorem tail_last {mz : Bool} {l : List (Str × Str)} (h : Tail mz l) : (∀ p ∈ l, Rafsi mz p.1) →
    (spell l).getLast? = (l.map Prod.fst).flatten.getLast? ∧ spell l ≠ [] := by
  induction h with
  | @last x =>
    intro hr
    have := rafsi_ne (hr (x, []) (by simp))
    simp [spell, this]
  | @more x x' h' t hT ih =>
    intro hr
    obtain ⟨i1, i2⟩ := ih (fun p hp => hr p (List.mem_cons_of_mem _ hp))
    have e : spell ((x, lateHyphen mz x x') :: (x', h') :: t) = x ++ lateHyphen mz x x' ++ spell ((x', h') :: t) := by
      simp [spell]
    rw [e, List.map_cons, List.flatten_cons, List.getLast?_append, List.getLast?_append (l := x), List.getLast?_append, ← i1]
    refine ⟨?_, by simp [i2]⟩
    cases hgl : (spell ((x', h') :: t)).getLast? with
    | none => simp only [List.getLast?_eq_none_iff] at hgl; exact absurd hgl i2
    | some d => rfl

theorem canon_last {s : Settings} {g : Bool} {l : List (Str × Str)} (h : Canon s g l) (hr : ∀ p ∈ l, Rafsi s.allowMz p.1) :
    (spell l).getLast? = (l.map Prod.fst).flatten.getLast? := by
  cases h with
  | @mk x x' h' t hT =>
    obtain ⟨i1, i2⟩ := tail_last hT (fun p hp => hr p (List.mem_cons_of_mem _ hp))
    have e : spell ((x, firstHyphen s g x x' h' t) :: (x', h') :: t) = x ++ firstHyphen s g x x' h' t ++ spell ((x', h') :: t) := by
      simp [spell]
    rw [e, List.map_cons, List.flatten_cons, List.getLast?_append, List.getLast?_append (l := x), List.getLast?_append, ← i1]
    cases hgl : (spell ((x', h') :: t)).getLast? with
    | none => simp only [List.getLast?_eq_none_iff] at hgl; exact absurd hgl i2
    | some d => rfl

theorem legal_last {s : Settings} {g : Bool} {xs : List Str} {zs : List Slot} {hy : Str} (hr : ∀ x ∈ xs, Rafsi s.allowMz x)
    (hf : Fits true xs zs) (hL : Legal s g zs hy) :
    ∃ c, xs.flatten.getLast? = some c ∧ if g then Consonant c else Vowel c := by
  obtain ⟨c, hc, hg⟩ := hL.ends
  refine ⟨c, fits_last hf hr c ?_ ?_ ?_, hg⟩
  · obtain ⟨y, z, rest, e, -⟩ := hL.first
    subst e
    have hne : ((z :: rest).map Slot.text).flatten ≠ [] := by
      cases hf with
      | cons ey _ _ hz =>
        cases hz with
        | cons ez _ hw _ =>
          have hx := hr z.rafsi (by simp [← ez])
          obtain ⟨h', e', -⟩ := (written_rafsi hx).1 hw
          have := rafsi_ne hx
          simp [e', this]
    have e : wordOf (y :: z :: rest) hy = (y.text ++ hy) ++ ((z :: rest).map Slot.text).flatten := rfl
    rw [e, List.getLast?_append] at hc
    rw [List.map_cons, List.flatten_cons, List.getLast?_append]
    cases hgl : (((z :: rest).map Slot.text).flatten).getLast? with
    | none => simp only [List.getLast?_eq_none_iff] at hgl; exact absurd hgl hne
    | some d => rw [hgl] at hc; simpa using hc
  · rintro rfl; cases g <;> revert hg <;> decide
  · rintro rfl; cases g <;> revert hg <;> decide

/-- Legal words over given rafsi have enough consonants with the canonical hyphens, too. -/
theorem legal_enough {s : Settings} {g : Bool} {l : List (Str × Str)} {zs : List Slot} {hy : Str} (h : Canon s g l)
    (hr : ∀ p ∈ l, Rafsi s.allowMz p.1) (hf : Fits true (l.map Prod.fst) zs) (hL : Legal s g zs hy) : EnoughL s l := by
  intro hcl
  have hcount : ∀ {f : Bool} {xs : List Str} {zs : List Slot}, Fits f xs zs → 0 < (zs.map (Slot.count s)).sum →
      ∃ x ∈ xs, kindOf x ≠ .vv := by
    intro f xs zs h
    induction h with
    | nil => intro h; simp at h
    | @cons f x xs z zs e hk hw _ ih =>
      intro h
      by_cases hx : kindOf x = .vv
      · rw [List.map_cons, List.sum_cons] at h
        have : z.count s = 0 := by
          unfold Slot.count; rw [hk, hx]; simp [hcl]
        obtain ⟨x', hx', h'⟩ := ih (by omega)
        exact ⟨x', List.mem_cons_of_mem _ hx', h'⟩
      · exact ⟨x, by simp, hx⟩
  have hpos : ∀ {n : Nat}, (if s.consonants = .oneConsonant then 1 else 2) ≤ n → 0 < n := by
    intro n h
    split at h <;> omega
  cases h with
  | @mk x x' h' t hT =>
    rcases hL.consonants with h | h | h
    · right
      refine ⟨x, _, _, rfl, ?_⟩
      rcases hL.first with ⟨y, z, rest, rfl, hfi⟩
      simp only [List.map_cons] at hf
      have hx : Rafsi s.allowMz x := hr (x, _) (List.mem_cons_self ..)
      have hx' : Rafsi s.allowMz x' := hr (x', h') (by simp)
      have hlen := fits_length hf
      cases hf with
      | cons ey _ _ hz =>
        obtain ⟨hz', htz, -⟩ := fits_text hz hx'
        cases hz with
        | cons ez _ _ hz =>
          rcases hfi with ⟨-, h1, -⟩ | ⟨-, -, h1⟩
          · rw [h] at h1; cases h1
          · have hc : pattern y.rafsi ∈ [s%"CVV", s%"CV'V"] ∧ g = false ∧ ¬ ((y :: z :: rest).length = 2 ∧ pattern z.rafsi = s%"CCV") := by
              refine Classical.byContradiction fun hc => ?_
              rw [if_neg hc, h] at h1; cases h1
            rw [if_pos hc, h] at h1
            have hvv : kindOf x = .vv := by
              rw [kind_vv, ← pattern_cvv, ← pattern_cvhv, ← ey]; simpa using hc.1
            unfold firstHyphen
            rw [if_neg (by rintro (h | ⟨h, -⟩) <;> rw [hvv] at h <;> cases h), if_pos]
            · split at h1
              · cases h1
              · rename_i hfy
                rw [if_neg hfy]
                split <;> simp
            · refine ⟨hvv, hc.2.1, ?_⟩
              rintro ⟨rfl, h2⟩
              refine hc.2.2 ⟨by rw [hlen]; rfl, ?_⟩
              rw [ez, pattern_ccv]; exact kind_ccv.1 h2
    · right
      refine ⟨x, _, _, rfl, ?_⟩
      rcases hL.first with ⟨y, z, rest, rfl, hfi⟩
      simp only [List.map_cons] at hf
      have hx : Rafsi s.allowMz x := hr (x, _) (List.mem_cons_self ..)
      have hx' : Rafsi s.allowMz x' := hr (x', h') (by simp)
      have hlen := fits_length hf
      cases hf with
      | cons ey _ _ hz =>
        obtain ⟨hz', htz, -⟩ := fits_text hz hx'
        cases hz with
        | cons ez _ _ hz =>
          rcases hfi with ⟨-, h1, -⟩ | ⟨-, -, h1⟩
          · rw [h] at h1; cases h1
          · have hc : pattern y.rafsi ∈ [s%"CVV", s%"CV'V"] ∧ g = false ∧ ¬ ((y :: z :: rest).length = 2 ∧ pattern z.rafsi = s%"CCV") := by
              refine Classical.byContradiction fun hc => ?_
              rw [if_neg hc, h] at h1; cases h1
            rw [if_pos hc, h] at h1
            have hvv : kindOf x = .vv := by
              rw [kind_vv, ← pattern_cvv, ← pattern_cvhv, ← ey]; simpa using hc.1
            unfold firstHyphen
            rw [if_neg (by rintro (h | ⟨h, -⟩) <;> rw [hvv] at h <;> cases h), if_pos]
            · split at h1
              · cases h1
              · rename_i hfy
                rw [if_neg hfy]
                split <;> simp
            · refine ⟨hvv, hc.2.1, ?_⟩
              rintro ⟨rfl, h2⟩
              refine hc.2.2 ⟨by rw [hlen]; rfl, ?_⟩
              rw [ez, pattern_ccv]; exact kind_ccv.1 h2
    · left
      obtain ⟨x, hx, hk⟩ := hcount hf (hpos h)
      obtain ⟨p, hp, rfl⟩ := List.mem_map.1 hx
      exact ⟨p, hp, hk⟩

/-- Rafsi with canonical hyphens; only the last may have five letters. -/
structure Made (s : Settings) (g : Bool) (l : List (Str × Str)) : Prop where
  canon : Canon s g l
  rafsi : ∀ p ∈ l, Rafsi s.allowMz p.1
  long : ∀ p ∈ l.dropLast, kindOf p.1 ≠ .long

/-- There are enough consonants, and the last letter is of the right kind. -/
structure Apt (s : Settings) (g : Bool) (l : List (Str × Str)) : Prop where
  enough : EnoughL s l
  ends : ∃ c, (spell l).getLast? = some c ∧ if g then Consonant c else Vowel c

theorem cost_letters {s : Settings} {g : Bool} {xs : List Str} {zs : List Slot} {hy : Str} (hr : ∀ x ∈ xs, Rafsi s.allowMz x)
    (hf : Fits true xs zs) (hL : Legal s g zs hy) :
    letterCost (wordOf zs hy) - 10 * (((xs.map shapeScore).sum : Nat) : Int) - vowelCount xs.flatten - 1 ≤ cost zs hy ∧
    cost zs hy ≤ letterCost (wordOf zs hy) - 10 * (((xs.map shapeScore).sum : Nat) : Int) - vowelCount xs.flatten := by
  unfold cost
  rw [legal_vowels hr hf hL, (fits_vowels hf hr).2]
  unfold letterCost
  split <;> omega

theorem lujvoOf_dash {b : Build} {s : Settings} {g : Bool} {xs : List Str} {w : Str} {sc : Int} (hr : ∀ x ∈ xs, Rafsi s.allowMz x) :
    LujvoOf b s g (xs.map dash) w sc ↔ ∃ zs h, Fits true xs zs ∧ Legal s g zs h ∧ w = wordOf zs h ∧ sc = cost zs h := by
  unfold LujvoOf
  rw [List.length_map]
  constructor
  · rintro ⟨zs, h, h1, h2⟩
    exact ⟨zs, h, (represents_fits hr (by omega)).1 h1, h2⟩
  · rintro ⟨zs, h, h1, h2⟩
    exact ⟨zs, h, (represents_fits hr (by omega)).2 h1, h2⟩

theorem made_xs {s : Settings} {g : Bool} {l : List (Str × Str)} (h : Made s g l) : ∀ x ∈ l.map Prod.fst, Rafsi s.allowMz x := by
  intro x hx
  obtain ⟨p, hp, rfl⟩ := List.mem_map.1 hx
  exact h.rafsi p hp

/-- What any lujvo of the rafsi has in common with the canonical one. -/
theorem made_fine {b : Build} {s : Settings} {g : Bool} {l : List (Str × Str)} (h : Made s g l) {w : Str} {sc : Int}
    (hw : LujvoOf b s g ((l.map Prod.fst).map dash) w sc) : Apt s g l := by
  obtain ⟨zs, hy, hf, hL, -⟩ := (lujvoOf_dash (made_xs h)).1 hw
  refine ⟨legal_enough h.canon h.rafsi hf hL, ?_⟩
  rw [canon_last h.canon h.rafsi]
  exact legal_last (made_xs h) hf hL

/-- The best lujvo is the one with the canonical hyphens. -/
theorem made_best {b : Build} {s : Settings} {g : Bool} {l : List (Str × Str)} (h : Made s g l) (hfine : Apt s g l) :
    (∃ sc, LujvoOf b s g ((l.map Prod.fst).map dash) (spell l) sc ∧ sc ≤ letterCost (spell l)) ∧
    ∀ w sc, LujvoOf b s g ((l.map Prod.fst).map dash) w sc →
      (∀ w' sc', LujvoOf b s g ((l.map Prod.fst).map dash) w' sc' → sc ≤ sc') → w = spell l := by
  obtain ⟨zs, hy, hf, hL, he⟩ := canon_legal h.canon h.rafsi h.long hfine.enough hfine.ends
  have hr := made_xs h
  have hc := cost_letters hr hf hL
  rw [he] at hc
  have hcl : LujvoOf b s g ((l.map Prod.fst).map dash) (spell l) (cost zs hy) := (lujvoOf_dash hr).2 ⟨zs, hy, hf, hL, he.symm, rfl⟩
  refine ⟨⟨_, hcl, by omega⟩, ?_⟩
  intro w sc hw hmin
  obtain ⟨zs', hy', hf', hL', rfl, rfl⟩ := (lujvoOf_dash hr).1 hw
  rcases canon_min h.canon h.rafsi hf' hL' with h1 | h1
  · exact h1
  · have := cost_letters hr hf' hL'
    have := hmin _ _ hcl
    omega

theorem made_search {b : Build} {s : Settings} {g : Bool} {l : List (Str × Str)} (h : Made s g l) {r : Str × Int × List (Nat × Nat)}
    (hr : getLujvoFromList (program b) s g ((l.map Prod.fst).map dash) = .ok r) : r.1 = spell l ∧ Apt s g l := by
  obtain ⟨h1, h2⟩ := getLujvoFromList_best.1 r hr
  have hf := made_fine h h1
  exact ⟨(made_best h hf).2 _ _ h1 h2, hf⟩

theorem solid_rafsi {mz : Bool} {x : Str} (h : Rafsi mz x) (u : Str) : Firm (x ++ u) := by
  obtain ⟨a, t, rfl, ha⟩ := rafsi_first h
  refine ⟨a, by simp, ?_⟩
  have := consonant_ne_y ((isConsonant_iff a).1 ha)
  unfold isHyphenLetter
  simp only [Bool.or_eq_false_iff, beq_eq_false_iff_ne]
  refine ⟨?_, this.1⟩
  rintro rfl; revert ha; decide

theorem cllForms_text {x : Str} {t : Tarmi} {f l : Bool} {co : Consonants} {r : RafsiOpt} (hr : r ∈ cllForms x t f l co) :
    ∃ u, r.1 = x ++ u := by
  have key : ∀ r' : RafsiOpt, (∃ n, r' = (x ++ s%"y", n)) ∨ (∃ n, r' = (x ++ s%"'", n)) ∨
      (∃ n, r' = (x, n)) ∨ (∃ n, r' = (x ++ s%"'y", n)) → ∃ u, r'.1 = x ++ u := by
    rintro r' (⟨n, rfl⟩ | ⟨n, rfl⟩ | ⟨n, rfl⟩ | ⟨n, rfl⟩)
    · exact ⟨_, rfl⟩
    · exact ⟨_, rfl⟩
    · exact ⟨[], by simp⟩
    · exact ⟨_, rfl⟩
  apply key
  unfold cllForms at hr
  revert hr
  cases t <;> cases f <;> cases l <;> simp <;> grind

/-- What the search does with rafsi that make a word. -/
theorem made_found {b : Build} {s : Settings} {g : Bool} {l : List (Str × Str)} (h : Made s g l) (hf : Apt s g l)
    (hlen : letterCost (spell l) < 10 ^ 100)
    (hsl : g = false → b = .linked ∧ (program b).slinkuhi s.yHyphens s.allowMz (spell l) = .ok false) :
    ∃ r, getLujvoFromList (program b) s g ((l.map Prod.fst).map dash) = .ok r ∧ r.1 = spell l := by
  have hxs := made_xs h
  cases hr : getLujvoFromList (program b) s g ((l.map Prod.fst).map dash) with
  | ok r => exact ⟨r, rfl, (made_search h hr).1⟩
  | error e =>
    exfalso
    obtain ⟨⟨sc, hsc, hle⟩, hmin⟩ := made_best (b := b) h hf
    have hno : e ≠ .noLujvo := by
      rintro rfl
      rcases getLujvoFromList_best.2 hr with h1 | ⟨rfl, rfl, w, sc', h1, h2, h3⟩
      · have := h1 _ _ hsc; omega
      · rw [hmin _ _ h1 h2, (hsl rfl).2] at h3
        cases h3
    have hcopy := hr
    unfold getLujvoFromList getRafsiListList at hr
    rw [show (l.map Prod.fst).map dash = (l.map Prod.fst).map (fun x => s%"-" ++ x ++ s%"-") from rfl, rafsiListListFrom_cll hxs] at hr
    have h2 : 2 ≤ (l.map Prod.fst).length := by
      cases h.canon with
      | mk => simp
    obtain ⟨best, hbest⟩ := total_searchStages (o := combineOpts s g) (ll := (l.map Prod.fst).mapIdx (fun j x => cllForms x (rafsiTarmi x) (0 + j == 0)
        (0 + j + 1 == ((l.map Prod.fst).map (fun x => s%"-" ++ x ++ s%"-")).length) s.consonants)) (by simpa using h2) (by
      intro fs hfs r hr
      rw [List.mem_mapIdx] at hfs
      obtain ⟨i, hi, rfl⟩ := hfs
      have hx := hxs _ (List.getElem_mem hi)
      generalize (l.map Prod.fst)[i] = x at hr hx
      have := cllForms_text hr
      obtain ⟨u, hu⟩ := this
      rw [hu]
      exact solid_rafsi hx u)
    simp only [bind, Except.bind, hbest] at hr
    split at hr
    · cases hr; exact hno rfl
    · rename_i r hpick
      cases g with
      | true => cases hr
      | false =>
        obtain ⟨rfl, hsl⟩ := hsl rfl
        obtain ⟨h1, h2⟩ := search_built (b := .linked) (vs := (l.map Prod.fst).map dash) (by
          unfold getRafsiListList
          exact rafsiListListFrom_cll hxs) hbest hpick
        have hr1 := hmin _ _ h1 h2
        simp only [Bool.not_false, if_true] at hr
        unfold slinkuhiInJvozba at hr
        rw [program_build, hr1, hsl] at hr
        simp at hr

end Jvotci
