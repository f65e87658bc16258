import Verif.Lemmas.JsForms
import Verif.Lemmas.JsParts
import Verif.Lemmas.Slin
import Verif.Lemmas.Relax
import Verif.Lemmas.CleanY

/-!
# The JavaScript search and the check of a decomposition agree with the Python ones
-/

namespace Jvotci

open Spec

/-- The errors after which nothing is claimed. -/
def Void (e : Err) : Prop := e = .index ∨ e = .fuel ∨ e = .name

theorem Ag.void {α : Type} {e : Err} (h : Void e) {x' : Except JsErr α} : Ag (.error e) x' :=
  ⟨nofun, fun _ h' => by cases h'; rcases h with h | h | h <;> simp [h]⟩

theorem Ag.cases {α : Type} {x : Except Err α} {x' : Except JsErr α} (h : Ag x x') :
    (∃ a, x = .ok a ∧ x' = .ok a) ∨ (∃ e, x = .error e ∧ Void e) ∨ ∃ e, ¬ Void e ∧ x = .error e ∧ x' = .error (toJ e) := by
  cases hx : x with
  | ok a => exact .inl ⟨a, rfl, h.1 a hx⟩
  | error e =>
    by_cases hv : Void e
    · exact .inr (.inl ⟨e, rfl, hv⟩)
    · refine .inr (.inr ⟨e, hv, rfl, ?_⟩)
      rcases h.2 e hx with h | h | h | h
      · exact absurd (.inl h) hv
      · exact absurd (.inr (.inl h)) hv
      · exact absurd (.inr (.inr h)) hv
      · exact h

theorem Rel.ok_of {α : Type} {bad : Err} {x x' : Except Err α} {a : α} (h : Rel bad x x') (hx : x = .ok a) : x' = .ok a := by
  rcases h with h | h
  · rw [h] at hx; cases hx
  · rw [← h]; exact hx

/-- Cutting the word gives a single rafsi. -/
def Lone (y : YHyphens) (mz : Bool) (w : Str) : Prop := ∃ arr, jvokaha2 y mz w = .ok arr ∧ (arr.filter (fun x => x.length > 2)).length = 1

/-- Cutting the word with `to` before it gives a single rafsi. -/
def Single (y : YHyphens) (mz : Bool) (w : Str) : Prop := Lone y mz (s%"to" ++ w)

theorem cuts_rafsi_len {mz : Bool} {p rest : Str} (h : Cuts mz p rest) : 2 < p.length ∧ p.length ≤ 5 := by
  have := rafsi_length h.rafsi
  omega

theorem chop_small {y : YHyphens} {mz : Bool} {prev : Option Str} {ps : List Str} (h : Chop y mz prev ps) :
    (∀ x ∈ ps, x.length ≤ 2) → ps = [] ∨ (join ps).getLast? = some 'y' := by
  have hj : ∀ (p : Str) (ps : List Str), join (p :: ps) = p ++ join ps := fun _ _ => rfl
  induction h with
  | nil => intro _; exact .inl rfl
  | y _ _ ih =>
    intro hs
    rcases ih (fun x hx => hs x (List.mem_cons_of_mem _ hx)) with h | h
    · subst h; exact .inr rfl
    · right; rw [hj, List.getLast?_append, h]; rfl
  | hy _ _ _ ih =>
    intro hs
    rcases ih (fun x hx => hs x (List.mem_cons_of_mem _ hx)) with h | h
    · subst h; exact .inr rfl
    · right; rw [hj, List.getLast?_append, h]; rfl
  | n _ _ _ e _ ih =>
    intro hs
    rcases ih (fun x hx => hs x (List.mem_cons_of_mem _ hx)) with h | h
    · subst h; cases e
    · right; rw [hj, List.getLast?_append, h]; rfl
  | r _ _ _ e _ _ _ ih =>
    intro hs
    rcases ih (fun x hx => hs x (List.mem_cons_of_mem _ hx)) with h | h
    · subst h; cases e
    · right; rw [hj, List.getLast?_append, h]; rfl
  | rafsi hr _ _ =>
    intro hs
    have := hs _ (List.mem_cons_self ..)
    have := cuts_rafsi_len hr
    omega

theorem lone_whole {y : YHyphens} {mz : Bool} {w : Str} (h : Lone y mz w) (hy : w.getLast? ≠ some 'y') : Rafsi mz w := by
  obtain ⟨arr, harr, h1⟩ := h
  obtain ⟨hj, hC⟩ := jvokaha2_ok harr
  cases hC with
  | nil => simp at h1
  | @rafsi _ p ps hp hrest =>
    have hp2 := cuts_rafsi_len hp
    rw [List.filter_cons, if_pos (by simp; omega)] at h1
    simp only [List.length_cons, Nat.add_eq_right, List.length_eq_zero_iff, List.filter_eq_nil_iff, decide_eq_true_eq] at h1
    have e : join (p :: ps) = p ++ join ps := rfl
    rcases chop_small hrest (fun x hx => by have := h1 x hx; omega) with rfl | h
    · rw [e] at hj
      simp [join] at hj
      subst hj
      exact hp.rafsi
    · rw [← hj, e, List.getLast?_append, h] at hy
      exact absurd rfl hy

/-- A word that does not end in y, is not of a single rafsi with `to` if it is long or has a y. -/
theorem single_short {y : YHyphens} {mz : Bool} {w : Str} (h : Single y mz w) (hy : w.getLast? ≠ some 'y') :
    w.length ≤ 3 ∧ 'y' ∉ w ∧ Rafsi mz (s%"to" ++ w) := by
  have hr : Rafsi mz (s%"to" ++ w) := by
    refine lone_whole h ?_
    rw [List.getLast?_append]
    cases hw : w.getLast? with
    | none => simp
    | some c => rw [hw] at hy; exact hy
  have := rafsi_length hr
  refine ⟨by simp at this; omega, fun hm => ?_, hr⟩
  exact rafsi_no_y hr (by simp [hm])

/-! ## Agreement of the recursion -/

structure AgRec (R : Rec) (J : JsRec) : Prop where
  build : R.build = .linked
  rel : RelRec .fuel R (program .linked)
  analyse : ∀ s v, Ag (R.analyse s v) (J.analyse s v)
  slinkuhi : ∀ y mz v, ¬ Single y mz v → Ag (R.slinkuhi y mz v) (J.slinkuhi y mz v)

variable {R : Rec} {J : JsRec}

theorem ag_isBrivlaR (h : AgRec R J) (s : Settings) (v : Str) : Ag (isBrivlaR R s v) (jsIsBrivlaR J s v) := by
  unfold isBrivlaR jsIsBrivlaR
  rcases (h.analyse s v).cases with ⟨a, h1, h2⟩ | ⟨e, h1, hv⟩ | ⟨e, hv, h1, h2⟩
  · rw [h1, h2]; exact Ag.ok _
  · rw [h1]
    rcases hv with rfl | rfl | rfl <;> exact Ag.void (by simp [Void])
  · rw [h1, h2]
    cases e <;> first | exact Ag.ok _ | exact Ag.err _ | exact absurd (by simp [Void]) hv

theorem ag_rafsiListShort (h : AgRec R J) (s : Settings) (f l : Bool) (v : Str) :
    Ag (rafsiListShort R s f l v) (jsRafsiListShort J s f l v) := by
  unfold rafsiListShort jsRafsiListShort
  refine Ag.bind ?_ fun a ha => ?_
  · unfold catchNotBrivla
    rcases (h.analyse { yHyphens := s.yHyphens, expRafsi := s.expRafsi, allowMz := s.allowMz } (v ++ s%"a")).cases with
      ⟨a, h1, h2⟩ | ⟨e, h1, hv⟩ | ⟨e, hv, h1, h2⟩
    · rw [h1, h2]; exact Ag.ok _
    · rw [h1]
      rcases hv with rfl | rfl | rfl <;> exact Ag.void (by simp [Void])
    · rw [h1, h2]
      cases e <;> first | exact Ag.err _ | exact absurd (by simp [Void]) hv
  · refine Ag.ite Iff.rfl (fun _ => Ag.err .noLujvo) fun _ => Ag.bind_last fun c hc => ?_
    rw [jsLast_of hc, jsIsConsonant_one, jsJvokaha2_eq]
    refine Ag.ite Iff.rfl (fun _ => ?_) fun _ => ag_getRafsiForRafsi ..
    cases jvokaha2 s.yHyphens s.allowMz v with
    | ok _ => exact Ag.err .noLujvo
    | error e => cases e <;> first | exact ag_getRafsiForRafsi .. | exact Ag.err _ | exact Ag.index

theorem ag_rafsiKind (h : AgRec R J) {s : Settings} {v : Str} (hex : s.expRafsi = false ∨ ∃ t, WordType .linked s v t) : Ag (rafsiKind R s v) (jsRafsiKind J s v) := by
  unfold rafsiKind jsRafsiKind
  rcases (h.analyse { yHyphens := s.yHyphens, expRafsi := s.expRafsi, allowMz := s.allowMz } v).cases with
      ⟨a, h1, h2⟩ | ⟨e, h1, hv⟩ | ⟨e, hv, h1, h2⟩
  · rw [h1, h2]
    exact Ag.ite Iff.rfl (fun _ => Ag.ok _) fun _ => Ag.err .notZihevla
  · rw [h1]
    rcases hv with rfl | rfl | rfl <;> exact Ag.void (by simp [Void])
  · rw [h1, h2]
    by_cases he : e = .notBrivla
    · subst he
      rcases hex with hex | ⟨t, ps, hw⟩
      · simp only [toJ, hex]
        exact Ag.err .notZihevla
      · rcases h.rel.analyse { yHyphens := s.yHyphens, expRafsi := s.expRafsi, allowMz := s.allowMz } v with h3 | h3
        · rw [h1] at h3; cases h3
        · rw [h1] at h3
          rw [program_analyse, hw] at h3; cases h3
    · cases e <;> first | exact Ag.err _ | exact absurd rfl he

theorem ag_rafsiListRafsi (h : AgRec R J) {s : Settings} (f l : Bool) {v : Str} (hex : s.expRafsi = false ∨ Rafsi s.allowMz v ∨ ∃ t, WordType .linked s v t) :
    Ag (rafsiListRafsi R s f l v) (jsRafsiListRafsi J s f l v) := by
  unfold rafsiListRafsi jsRafsiListRafsi
  simp only [jsRafsiTarmi_eq, jsIsValidRafsi_eq]
  exact Ag.ite Iff.rfl (fun ho => Ag.bind (ag_rafsiKind h (by
      rcases hex with hex | hex | hex
      · exact .inl hex
      · have := isValidRafsi_iff.2 hex
        unfold isValidRafsi at this
        rw [ho] at this
        cases this
      · exact .inr hex)) fun _ _ => ag_getRafsiForRafsi ..) fun _ =>
    Ag.ite Iff.rfl (fun _ => Ag.err .invalidCluster) fun _ => ag_getRafsiForRafsi ..

theorem ag_rafsiListTable (s : Settings) (f l : Bool) : ∀ rs, Ag (rafsiListTable s f l rs) (jsRafsiListTable s f l rs)
  | [] => Ag.ok _
  | r :: rs => by
    unfold rafsiListTable jsRafsiListTable
    rw [jsRafsiTarmi_eq]
    exact Ag.ite Iff.rfl (fun _ => ag_rafsiListTable s f l rs) fun _ => Ag.bind (ag_getRafsiForRafsi ..) fun _ _ =>
      Ag.bind (ag_rafsiListTable s f l rs) fun _ _ => Ag.ok _

theorem ag_rafsiListWord (h : AgRec R J) (s : Settings) (f l : Bool) (v : Str) :
    Ag (rafsiListWord R s f l v) (jsRafsiListWord J s f l v) := by
  unfold rafsiListWord jsRafsiListWord
  rw [jsIsOnlyLojban_eq]
  refine Ag.ite Iff.rfl (fun _ => Ag.err .nonLojban) fun _ => Ag.bind (ag_rafsiListTable ..) fun _ _ => Ag.bind ?_ fun _ _ =>
    Ag.bind (Ag.ite Iff.rfl (fun _ => ag_getRafsiForRafsi ..) fun _ => Ag.ok _) fun _ _ =>
    Ag.bind (Ag.ite Iff.rfl (fun _ => ag_getRafsiForRafsi ..) fun _ => Ag.ok _) fun _ _ => Ag.ok _
  rcases (h.analyse { yHyphens := s.yHyphens, expRafsi := s.expRafsi, allowMz := s.allowMz } v).cases with
      ⟨a, h1, h2⟩ | ⟨e, h1, hv⟩ | ⟨e, hv, h1, h2⟩
  · rw [h1, h2]; exact Ag.ok _
  · rw [h1]
    rcases hv with rfl | rfl | rfl <;> exact Ag.void (by simp [Void])
  · rw [h1, h2]
    cases e <;> first | exact Ag.ok _ | exact Ag.err _ | exact absurd (by simp [Void]) hv

theorem ag_rafsiListFor (h : AgRec R J) {s : Settings} (f l : Bool) {v : Str} (hex : NoExp .linked s v) :
    Ag (rafsiListFor R s f l v) (jsRafsiListFor J s f l v) := by
  unfold rafsiListFor jsRafsiListFor
  refine Ag.bind_last fun c hc => ?_
  rw [jsLast_of hc]
  refine Ag.ite (by simp) (fun hdash => Ag.bind_idx fun d hd => ?_) fun _ => ag_rafsiListWord h s f l v
  simp only [jsAt_of hd, jsIsOnlyLojban_eq]
  refine Ag.ite Iff.rfl (fun _ => Ag.err .nonLojban) fun hloj => Ag.bind_last fun c' hc' => ?_
  rw [jsLast_of hc']
  refine Ag.ite (by simp) (fun _ => Ag.err .nonLojban) fun _ => Ag.ite (by simp) (fun _ => ag_rafsiListShort h ..) fun hfirst =>
    ag_rafsiListRafsi h _ _ (hex.imp_right fun hex => hex _ ?_)
  refine dashed_of ?_ (by rw [hc]; simpa using hdash) (by simpa using hloj)
  have : d = '-' := by simpa using hfirst
  subst this
  cases v with
  | nil => cases hd
  | cons => simpa using hd

theorem ag_rafsiListListFrom (h : AgRec R J) {s : Settings} (n : Nat) : ∀ vs i, (∀ v ∈ vs, NoExp .linked s v) →
    Ag (rafsiListListFrom R s n i vs) (jsRafsiListListFrom J s n i vs)
  | [], _, _ => Ag.ok _
  | v :: vs, i, hex => by
    unfold rafsiListListFrom jsRafsiListListFrom
    exact Ag.bind (ag_rafsiListFor h _ _ (hex v (List.mem_cons_self ..))) fun _ _ =>
      Ag.bind (ag_rafsiListListFrom h n vs (i + 1) fun v hv => hex v (List.mem_cons_of_mem _ hv)) fun _ _ => Ag.ok _

theorem ag_getLujvoFromList (h : AgRec R J) {s : Settings} (g : Bool) (vs : List Str) (hex : ∀ v ∈ vs, NoExp .linked s v) :
    Ag (getLujvoFromList R s g vs) (jsGetLujvoFromList J s g vs) := by
  unfold getLujvoFromList jsGetLujvoFromList
  refine Ag.bind (ag_rafsiListListFrom h _ _ _ hex) fun ll hll => ?_
  have hllp : rafsiListListFrom (program .linked) s vs.length 0 vs = .ok ll := (rel_rafsiListListFrom h.rel s _ vs 0).ok_of hll
  refine Ag.bind (ag_searchStages fun l hl r hr => later_forms hex hllp l (List.mem_of_mem_tail hl) r hr) fun best hbest => ?_
  rw [jsPickBest_eq]
  cases hp : pickBest g best with
  | none => exact Ag.err .noLujvo
  | some r =>
    refine Ag.ite Iff.rfl (fun hg => ?_) fun _ => Ag.ok _
    have hlong := search_long hex hllp hbest hp
    have hvow : r.1.getLast? ≠ some 'y' := by
      obtain ⟨⟨zs, h, hrep, hL, e, -⟩, -⟩ := search_built hllp hbest hp
      obtain ⟨c, hc, hv⟩ := hL.ends
      rw [← e] at hc
      rw [hc]
      rintro ⟨⟩
      simp only [Bool.not_eq_true', ] at hg
      subst hg
      exact absurd hv (by decide)
    unfold slinkuhiInJvozba
    rw [h.build]
    refine Ag.bind (h.slinkuhi _ _ _ fun hs => ?_) fun b _ => Ag.ite Iff.rfl (fun _ => Ag.err .noLujvo) fun _ => Ag.ok _
    have := (single_short hs hvow).1
    omega

/-! ## The check of a decomposition -/

theorem flat_no_apostrophe {s : Settings} {g : Bool} {l : List (Str × Str)} (h : Made s g l) (hy : s.yHyphens ≠ .forceY) : s%"'y" ∉ flat l := by
  have hr : ∀ p ∈ l, p.1 ≠ s%"'y" := by
    intro p hp e
    have := rafsi_length (h.rafsi p hp)
    rw [e] at this
    simp at this
  have hg : ∀ p ∈ l, p.2 ≠ s%"'y" := by
    cases h.canon with
    | @mk x x' h' t hT =>
      have tl : ∀ {l : List (Str × Str)}, Tail s.allowMz l → ∀ p ∈ l, p.2 ≠ s%"'y" := by
        intro l hl
        induction hl with
        | last => simp
        | more _ ih =>
          intro p hp
          rcases List.mem_cons.1 hp with rfl | hp
          · rename_i x x' _ _ _
            rcases late_cases s.allowMz x x' with h | ⟨h, -⟩ <;> simp [h]
          · exact ih p hp
      intro p hp
      rcases List.mem_cons.1 hp with rfl | hp
      · simp only [firstHyphen, if_neg hy]
        repeat' split
        all_goals simp
      · exact tl hT p hp
  intro hm
  unfold flat at hm
  obtain ⟨q, hq, hm⟩ := List.mem_flatten.1 hm
  obtain ⟨p, hp, rfl⟩ := List.mem_map.1 hq
  unfold piecesOf at hm
  split at hm
  · simp at hm; exact hr p hp hm.symm
  · simp at hm
    rcases hm with hm | hm
    · exact hr p hp hm.symm
    · exact hg p hp hm.symm

/-- The canonical lujvo is cut in the same way with the standard hyphens. -/
theorem recut {y : YHyphens} {co : Consonants} {gl mz g : Bool} {w : Str} {arr : List Str} (harr : jvokaha2 y mz w = .ok arr)
    (hne : arr ≠ []) (h1 : (arr.filter (fun x => x.length > 2)).length ≠ 1) (hy : y ≠ .forceY) {r : Str × Int × List (Nat × Nat)}
    (hr : getLujvoFromList (program .linked) (kahaSettings y co gl mz) g
      ((arr.filter (fun x => x.length > 2)).map (fun x => s%"-" ++ x ++ s%"-")) = .ok r) :
    ∃ corr, jvokaha2 y mz r.1 = .ok corr ∧ jvokaha2 .standard mz r.1 = .ok corr := by
  obtain ⟨hj, hC⟩ := jvokaha2_ok harr
  have hlen : 2 ≤ (arr.filter (fun x => x.length > 2)).length := by
    cases arr with
    | nil => exact absurd rfl hne
    | cons p arr =>
      have hp := rafsi_length hC.head.1.rafsi
      rw [List.filter_cons, if_pos (by simp; omega)] at h1 ⊢
      rw [List.length_cons] at h1 ⊢
      omega
  obtain ⟨l, hcan, hfst⟩ := canon_exists (kahaSettings y co gl mz) g hlen
  have hmade : Made (kahaSettings y co gl mz) g l := by
    refine ⟨hcan, ?_, ?_⟩
    · intro p hp
      exact hC.filter p.1 (hfst ▸ List.mem_map.2 ⟨p, hp, rfl⟩)
    · intro p hp
      refine chop_long hC p.1 (hfst ▸ ?_)
      rw [← List.map_dropLast]
      exact List.mem_map.2 ⟨p, hp, rfl⟩
  have hd : ∀ p ∈ l, Diph p.1 := by
    intro p hp
    have : p.1 ∈ arr.filter (fun x => x.length > 2) := hfst ▸ List.mem_map.2 ⟨p, hp, rfl⟩
    exact chop_diph hC _ (List.mem_filter.1 this).1
  have hread := ext_reading hmade (Ext.refl y l) hd
  rw [← hfst] at hr
  have hsp := (made_search hmade hr).1
  rw [hsp, ← flat_spell]
  exact ⟨flat l, C37_reading_found hread, C37_reading_found (reading_same (.inr ⟨hy, nofun⟩) (.inr (flat_no_apostrophe hmade hy)) hread)⟩

/-- Agreement, except that JavaScript may throw a `TypeError` for a decomposition into a single rafsi. -/
def AgJ {α : Type} (lone : Prop) (x : Except Err α) (x' : Except JsErr α) : Prop :=
  Ag x x' ∨ (lone ∧ x = .error .decomposition ∧ x' = .error .type)

theorem agj_jvokaha (h : AgRec R J) (y : YHyphens) (co : Consonants) (gl mz : Bool) (w : Str) :
    AgJ (Lone y mz w) (jvokaha R y co gl mz w) (jsJvokaha J y co gl mz w) := by
  unfold jvokaha jsJvokaha
  rw [jsJvokaha2_eq]
  cases harr : jvokaha2 y mz w with
  | error e => exact .inl (Ag.err e)
  | ok arr =>
    simp only [Except.mapError, ok_bind]
    show AgJ _ _ (if _ then _ else _)
    by_cases h1 : ((arr.filter (fun x => x.length > 2)).map (fun x => s%"-" ++ x ++ s%"-")).length = 1
    · rw [if_pos h1, if_pos h1]
      exact .inr ⟨⟨arr, harr, by rwa [List.length_map] at h1⟩, rfl, rfl⟩
    · rw [if_neg h1, if_neg h1]
      left
      rw [List.length_map] at h1
      cases hl : arr.getLast? with
      | none => exact Ag.index
      | some p =>
        have hne : arr ≠ [] := by rintro rfl; cases hl
        refine Ag.bind_last fun c hc => ?_
        dsimp only
        rw [jsLast_of hc, jsIsConsonant_one]
        refine Ag.bind ?_ fun r hr => ?_
        · rcases (ag_getLujvoFromList h (s := kahaSettings y co gl mz) (isConsonant c)
              ((arr.filter (fun x => x.length > 2)).map (fun x => s%"-" ++ x ++ s%"-")) fun _ _ => .inl rfl).cases with ⟨a, h1, h2⟩ | ⟨e, h1, hv⟩ | ⟨e, hv, h1, h2⟩
          · simp only [kahaSettings] at h1 h2
            rw [h1, h2]; exact Ag.ok _
          · simp only [kahaSettings] at h1
            rw [h1]
            rcases hv with rfl | rfl | rfl <;> exact Ag.void (by simp [Void])
          · simp only [kahaSettings] at h1 h2
            rw [h1, h2]
            cases e <;> first | exact Ag.err _ | exact Ag.err .decomposition | exact absurd (by simp [Void]) hv
        · refine Ag.bind ?_ fun good _ => Ag.ite Iff.rfl (fun _ => Ag.ok _) fun _ => Ag.err .decomposition
          refine Ag.ite Iff.rfl (fun _ => Ag.ok _) fun hy => ?_
          have hr' : getLujvoFromList (program .linked) (kahaSettings y co gl mz) (isConsonant c)
              ((arr.filter (fun x => x.length > 2)).map (fun x => s%"-" ++ x ++ s%"-")) = .ok r := by
            refine (rel_getLujvoFromList h.rel _ _ _).ok_of ?_
            unfold kahaSettings
            split at hr
            · cases hr
            · exact hr
          obtain ⟨corr, h2, h3⟩ := recut harr hne h1 hy hr'
          rw [jsJvokaha2_eq, h2, h3]
          show Ag (compareLujvoPieces corr arr) (.ok (jsComparePieces corr arr))
          have ho : Ordinary arr := by
            intro q hq
            rcases (jvokaha2_ok harr).2.mem q hq with ⟨h, -⟩ | h | h | h | h
            · constructor <;> rintro rfl <;> simp at h
            all_goals subst h; decide
          unfold compareLujvoPieces jsComparePieces
          rw [jsCompareLoop_ok ho]
          have herr : Errs [.index] (comparePiecesLoop arr corr 0) := errs_comparePiecesLoop arr corr 0
          cases hcmp : comparePiecesLoop arr corr 0 with
          | ok b => exact Ag.ok _
          | error e =>
            have := herr e hcmp
            simp at this
            subst this
            exact Ag.index

theorem ag_isSlinkuhi (h : AgRec R J) (y : YHyphens) (mz : Bool) (w : Str) (hs : ¬ Single y mz w) :
    Ag (isSlinkuhi R y mz w) (jsIsSlinkuhi J y mz w) := by
  unfold isSlinkuhi jsIsSlinkuhi
  refine Ag.bind_idx fun c hc => ?_
  rw [jsAt_of hc, jsIsVowel_one]
  refine Ag.ite Iff.rfl (fun _ => Ag.ok _) fun _ => ?_
  rcases agj_jvokaha h y .cluster false mz (s%"to" ++ w) with h | ⟨h, -⟩
  · rcases h.cases with ⟨a, h1, h2⟩ | ⟨e, h1, hv⟩ | ⟨e, hv, h1, h2⟩
    · rw [h1, h2]; exact Ag.ok _
    · rw [h1]
      rcases hv with rfl | rfl | rfl <;> exact Ag.void (by simp [Void])
    · rw [h1, h2]
      cases e <;> first | exact Ag.err _ | exact Ag.ok _ | exact absurd (by simp [Void]) hv
  · exact absurd h hs

end Jvotci
