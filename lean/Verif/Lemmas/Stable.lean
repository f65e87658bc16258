import Verif.Lemmas.Remade

/-!
# Taking a lujvo apart and making it again, twice
-/

namespace Jvotci

open Spec

namespace Spec

/-- Listed gismu that share their first four letters with another one and have a short rafsi, and listed zi'evla. -/
def oddWords : List Str := [s%"broda", s%"brode", s%"majgo", s%"je'ebzi", s%"mu'umgu", s%"va'arga"]

end Spec

/-- What `get_veljvo` shows for the rafsi `x`. -/
inductive Came (s : Settings) (v x : Str) : Prop
  | found : searchSelrafsi x = some v → Came s v x
  | cut : searchSelrafsi x = none → Gismu s.allowMz (x ++ s%"a") → v = x ++ s%"-" → Came s v x
  | whole : searchSelrafsi x = none → Gismu s.allowMz x → v = x → Came s v x
  | rafsi : searchSelrafsi x = none → Rafsi s.allowMz x → kindOf x ≠ .long → kindOf x ≠ .short → v = dash x → Came s v x

theorem came_det {s : Settings} {v v' x : Str} (h : Came s v x) (h' : Came s v' x) : v = v' := by
  have hk : ∀ {x : Str}, Gismu s.allowMz x → kindOf x = .long := fun h => gismu_long h (.gismu h)
  have hc : ∀ {x : Str}, Gismu s.allowMz (x ++ s%"a") → kindOf x = .short := fun h => (gismu_cut h).2.2.1
  cases h with
  | found h =>
    cases h' with
    | found h' => rw [h] at h'; exact Option.some.inj h'
    | cut h' => rw [h] at h'; cases h'
    | whole h' => rw [h] at h'; cases h'
    | rafsi h' => rw [h] at h'; cases h'
  | cut h hg e =>
    cases h' with
    | found h' => rw [h] at h'; cases h'
    | cut _ _ e' => rw [e, e']
    | whole _ hg' => have := hk hg'; rw [hc hg] at this; cases this
    | rafsi _ _ _ h' => exact absurd (hc hg) h'
  | whole h hg e =>
    cases h' with
    | found h' => rw [h] at h'; cases h'
    | cut _ hg' => have := hk hg; rw [hc hg'] at this; cases this
    | whole _ _ e' => rw [e, e']
    | rafsi _ _ h' => exact absurd (hk hg) h'
  | rafsi h _ h1 h2 e =>
    cases h' with
    | found h' => rw [h] at h'; cases h'
    | cut _ hg' => exact absurd (hc hg') h2
    | whole _ hg' => exact absurd (hk hg') h1
    | rafsi _ _ _ _ e' => rw [e, e']

theorem all2_det {s : Settings} : ∀ {xs vs vs' : List Str}, All2 (Came s) vs xs → All2 (Came s) vs' xs → vs = vs'
  | [], _, _, h, h' => by cases h; cases h'; rfl
  | _ :: _, _, _, h, h' => by
    cases h with
    | cons h1 h2 =>
      cases h' with
      | cons h1' h2' => rw [came_det h1 h1', all2_det h2 h2']

/-- After a rafsi of four letters there is a y. -/
def ShortY : List (Str × Str) → Prop
  | [] => True
  | [_] => True
  | p :: q :: t => (kindOf p.1 = .short → p.2 = s%"y") ∧ ShortY (q :: t)

theorem tail_shortY {mz : Bool} {l : List (Str × Str)} (h : Tail mz l) : ShortY l := by
  induction h with
  | last => trivial
  | more _ ih =>
    refine ⟨fun hk => ?_, ih⟩
    exact if_pos (.inl hk)

theorem canon_shortY {s : Settings} {g : Bool} {l : List (Str × Str)} (h : Canon s g l) : ShortY l := by
  cases h with
  | mk hT =>
    refine ⟨fun hk => ?_, tail_shortY hT⟩
    exact if_pos (.inl hk)

theorem ext_shortY {y : YHyphens} {l m : List (Str × Str)} (h : Ext y l m) (hs : ShortY l) : ShortY m := by
  induction h with
  | nil => trivial
  | @same p l m hE ih =>
    cases hE with
    | nil => trivial
    | same => exact ⟨hs.1, ih hs.2⟩
    | extra => exact ⟨hs.1, ih hs.2⟩
  | extra _ hv _ ih =>
    refine ⟨fun hk => ?_, ih hs.2⟩
    simp only at hk
    rw [hv] at hk
    cases hk

/-- A rafsi of four letters, without apostrophe, is a gismu without its last vowel. -/
theorem short_gismu {mz : Bool} {x : Str} (h : Rafsi mz x) (hk : kindOf x = .short) : Gismu mz (x ++ s%"a") := by
  have hrk := rafsi_rk h
  rw [hk] at hrk
  cases hrk with
  | cvcc h1 h2 h3 => exact .cvccv h1 h2 h3 (by decide)
  | ccvc h1 h2 h3 => exact .ccvcv h1 h2 h3 (by decide)

theorem format_came {s : Settings} {ps : List Str} {i : Nat} {x v : Str} (hr : Rafsi s.allowMz x) (hk : kindOf x ≠ .long ∨ i + 1 = ps.length)
    (hy : kindOf x = .short → i + 1 = ps.length ∨ i + 2 < ps.length ∧ ps[i + 1]? = some s%"y")
    (h : formatPiece .linked s ps i x = .ok v) : Came s v x := by
  unfold formatPiece at h
  dsimp only at h
  split at h
  · rename_i g hs
    cases h
    exact .found hs
  · rename_i hs
    obtain ⟨ny, hny, h⟩ := bind_ok h
    obtain ⟨y1, hy1, h⟩ := bind_ok h
    have hnl : ny = true → ¬ Gismu s.allowMz x := by
      rintro rfl hg
      split at hny
      · rcases hk with hk | hk
        · exact hk (gismu_long hg (.gismu hg))
        · omega
      · cases hny
    split at h
    · rename_i hyt
      subst hyt
      cases h
      split at hy1
      · rename_i hn
        exact .cut hs (rafsi_a_brivla hr (hnl hn) hy1) rfl
      · cases hy1
    · rename_i hy1f
      obtain ⟨y2, hy2, h⟩ := bind_ok h
      split at h
      · rename_i hyt
        subst hyt
        cases h
        exact .whole hs (rafsi_brivla hr hy2) rfl
      · rename_i hyf
        have hng : ¬ Gismu s.allowMz x := by
          intro hg
          rw [gismu_brivla hg] at hy2
          cases hy2
          exact hyf rfl
        obtain ⟨y3, hy3, h⟩ := bind_ok h
        split at h
        · rename_i hyt
          subst hyt
          cases h
          split at hy3
          · exact .cut hs (rafsi_a_brivla hr hng hy3) rfl
          · cases hy3
        · rename_i hy3f
          cases h
          refine .rafsi hs hr ?_ ?_ rfl
          · intro h
            have hrk := rafsi_rk hr
            rw [h] at hrk
            cases hrk with
            | cvccv h1 h2 h3 h4 => exact hng (.cvccv h1 h2 h3 h4)
            | ccvcv h1 h2 h3 h4 => exact hng (.ccvcv h1 h2 h3 h4)
          · intro h
            have hg := short_gismu hr h
            rcases hy h with h | ⟨h1, h2⟩
            · rw [if_pos h, gismu_brivla hg] at hy3
              cases hy3
              exact hy3f rfl
            · rw [if_pos h1, h2] at hny
              cases hny
              rw [gismu_brivla hg] at hy1
              cases hy1
              exact hy1f rfl

theorem selrafsi_came {s : Settings} {ps : List Str} : ∀ {m : List (Str × Str)} {i : Nat} {r : List Str},
    (∀ p ∈ m, Rafsi s.allowMz p.1 ∧ Glue p.2) → (∀ p ∈ m.dropLast, kindOf p.1 ≠ .long) → (∀ p, m.getLast? = some p → p.2 = []) →
    ShortY m → ps.drop i = flat m → selrafsiFrom .linked s ps i (flat m) = .ok r → All2 (Came s) r (m.map Prod.fst)
  | [], i, r, _, _, _, _, _, h => by cases h; exact .nil
  | (x, g) :: m, i, r, hr, hk, hl, hS, hi, h => by
    obtain ⟨hx, hg⟩ := hr (x, g) (by simp)
    have hr' : ∀ p ∈ m, Rafsi s.allowMz p.1 ∧ Glue p.2 := fun p hp => hr p (List.mem_cons_of_mem _ hp)
    have hk' : ∀ p ∈ m.dropLast, kindOf p.1 ≠ .long := by
      intro p hp
      refine hk p ?_
      cases m with
      | nil => simp at hp
      | cons q m => rw [List.dropLast_cons_cons]; exact List.mem_cons_of_mem _ hp
    have hl' : ∀ p, m.getLast? = some p → p.2 = [] := by
      intro p hp
      refine hl p ?_
      cases m with
      | nil => simp at hp
      | cons q m => rw [List.getLast?_cons_cons]; exact hp
    have hS' : ShortY m := by
      cases m with
      | nil => trivial
      | cons q m => exact hS.2
    have hil : i + (flat ((x, g) :: m)).length = ps.length := by
      rw [← hi, List.length_drop]
      have : 0 < (flat ((x, g) :: m)).length := by rw [flat_cons]; unfold piecesOf; split <;> simp
      rw [← hi, List.length_drop] at this
      omega
    have hlast : m = [] → i + 1 = ps.length := by
      rintro rfl
      have : g = [] := hl (x, g) rfl
      subst this
      simpa [flat, piecesOf] using hil
    have hkx : kindOf x ≠ .long ∨ i + 1 = ps.length := by
      cases m with
      | nil => exact .inr (hlast rfl)
      | cons q m => exact .inl (hk (x, g) (by simp))
    have hyx : kindOf x = .short → i + 1 = ps.length ∨ i + 2 < ps.length ∧ ps[i + 1]? = some s%"y" := by
      intro hks
      cases m with
      | nil => exact .inl (hlast rfl)
      | cons q m =>
        have e : g = s%"y" := hS.1 hks
        subst e
        rw [flat_hyphen (by simp)] at hi hil
        have h0 : 0 < (flat (q :: m)).length := by rw [flat_cons]; unfold piecesOf; split <;> simp
        refine .inr ⟨by simp only [List.length_cons] at hil; omega, ?_⟩
        rw [← List.getElem?_drop, hi]; rfl
    by_cases hn : g = []
    · subst hn
      rw [flat_bare] at hi h
      unfold selrafsiFrom at h
      rw [rafsi_notHyphen hx] at h
      simp only [Bool.false_eq_true, if_false] at h
      obtain ⟨v, hv, h⟩ := bind_ok h
      obtain ⟨r', hr2, h⟩ := bind_ok h
      cases h
      exact .cons (format_came hx hkx hyx hv) (selrafsi_came hr' hk' hl' hS' (by rw [← List.drop_drop, hi]; rfl) hr2)
    · rw [flat_hyphen hn] at hi h
      have hhh : (HYPHENS.contains g || g.isEmpty) = true := by
        rw [hyphens_iff.2 (hg.hyphen hn)]; rfl
      unfold selrafsiFrom at h
      rw [rafsi_notHyphen hx] at h
      simp only [Bool.false_eq_true, if_false] at h
      obtain ⟨v, hv, h⟩ := bind_ok h
      obtain ⟨r', hr2, h⟩ := bind_ok h
      cases h
      unfold selrafsiFrom at hr2
      rw [hhh] at hr2
      simp only [if_true] at hr2
      exact .cons (format_came hx hkx hyx hv) (selrafsi_came hr' hk' hl' hS' (by rw [← List.drop_drop, ← List.drop_drop, hi]; rfl) hr2)

/-! ## The components have no other form -/

theorem table_plain_check : RAFSI_LIST.all (fun e => e.2.isEmpty || oddWords.contains e.1 || ((isGismu false e.1 ||
    (e.1.all (fun c => isVowel c || isConsonant c || c == '\'') &&
      ((List.range e.1.length).all fun i => !((e.1[i]?.map isConsonant).getD false && (e.1[i + 1]?.map isConsonant).getD false)))) &&
    !sharedStems.contains e.1)) = true := by decide +kernel

theorem search_known {mz : Bool} {x v : Str} (hr : Rafsi mz x) (h : searchSelrafsi x = some v) (ho : v ∉ oddWords) : Known mz v := by
  rcases searchSelrafsi_some h with ⟨rs, h1, h2⟩ | ⟨h4, hq, hne, u, rs, hu, rfl, hl⟩
  · have := List.all_eq_true.1 table_plain_check _ h1
    have hne : rs.isEmpty = false := by cases rs with
      | nil => simp at h2
      | cons => rfl
    simp only [hne, Bool.false_or, Bool.or_eq_true, Bool.and_eq_true] at this
    rcases this with h | ⟨h, hs⟩
    · exact absurd (List.contains_iff_mem.1 h) ho
    · refine ⟨⟨rs, h1⟩, ?_, by simpa using hs⟩
      rcases h with h | ⟨hl, ha⟩
      · exact .inl (gismu_mono (isGismu_iff.1 h))
      · refine .inr ⟨(table_letters h1 h2).1, ?_⟩
        rintro a b ⟨p, q, e⟩ ⟨hca, hcb⟩
        have := List.all_eq_true.1 ha p.length (by simp [e])
        simp [e, (isConsonant_iff a).2 hca, (isConsonant_iff b).2 hcb] at this
  · have hg : Gismu mz (x ++ [u]) := by
      rcases table_gismu hl (by simp [h4]) (by
        rw [List.mem_append]
        rintro (h | h)
        · exact hq h
        · simp at h; subst h; exact absurd hu (by decide)) with h | h
      · exact gismu_mono h
      · exfalso
        have : x = s%"Ping" := (List.append_inj' (t₁ := [u]) (t₂ := s%"o") h rfl).1
        subst this
        obtain ⟨c, t, e, hc⟩ := rafsi_first hr
        cases e
        exact absurd hc (by decide)
    refine ⟨⟨rs, hl⟩, .inl hg, fun hs => shared_lost _ hs ?_⟩
    rw [List.take_append_of_le_length (by omega), List.take_of_length_le (by omega)]
    exact h

/-- Whatever rafsi stands for a component, `get_veljvo` shows the component for it. -/
theorem came_usable {s : Settings} {v x x' : Str} {k : Kind} (hr : Rafsi s.allowMz x) (hd : Diph x) (h : Came s v x) (ho : v ∉ oddWords)
    (hu : Usable .linked s v x' k) :
    (Rafsi s.allowMz x' ∧ Diph x') ∧ (Plain s.allowMz v ∨ kindOf x' ≠ .long) ∧
    ((kindOf x = .long → ∃ c, x'.getLast? = some c ∧ Vowel c) → Came s v x') := by
  cases h with
  | found h =>
    have hk := search_known hr h ho
    refine ⟨plain_rafsi hk.form hu, .inl hk.form, fun _ => ?_⟩
    rcases usable_search hk hu with h | ⟨rfl, hg, -, hn⟩
    · exact .found h
    · exact .whole hn hg rfl
  | cut h hg e =>
    obtain ⟨-, h4, hks, -⟩ := gismu_cut hg
    have hdash := letters_no_dash (rafsi_letters hr)
    obtain ⟨e', -⟩ := usable_dash (y := x) hu (by rw [e]; simp) (by
      have := strip_dashes hdash 0 1
      simpa [e] using this)
    subst e'
    refine ⟨⟨hr, hd⟩, .inr (by rw [hks]; simp), fun _ => .cut h hg e⟩
  | whole h hg e =>
    subst e
    refine ⟨plain_rafsi (.inl hg) hu, .inl (.inl hg), fun hv => ?_⟩
    obtain ⟨c, hc, hcv⟩ := hv (gismu_long hg hr)
    rcases plain_usable (.inl hg) hu with ⟨rs, h1, h2⟩ | ⟨-, ⟨-, d, e⟩ | ⟨-, e⟩⟩
    · exact .found (C29_rafsi_table h1 h2).2.2.2
    · exfalso
      rw [e] at hg
      obtain ⟨hr', h4, hks, -⟩ := gismu_cut hg
      have hrk := rafsi_rk hr'
      rw [hks] at hrk
      cases hrk with
      | cvcc h1 h2 h3 => cases hc; exact vowel_not_consonant hcv h3.2.1
      | ccvc h1 h2 h3 => cases hc; exact vowel_not_consonant hcv h3
    · exact .whole (e ▸ h) (e ▸ hg) e.symm
  | rafsi h hx h1 h2 e =>
    obtain ⟨e', -⟩ := usable_dash (y := x) hu (by rw [e]; exact dashed_last (dash_dashed hr)) (by rw [e]; exact dashed_strip (dash_dashed hr))
    subst e'
    exact ⟨⟨hr, hd⟩, .inr h1, fun _ => .rafsi h hx h1 h2 e⟩

theorem came_represents {s : Settings} {n : Nat} : ∀ {xs vs : List Str} {i : Nat} {zs : List Slot}, All2 (Came s) vs xs →
    (∀ x ∈ xs, Rafsi s.allowMz x ∧ Diph x) → (∀ x ∈ xs.dropLast, kindOf x ≠ .long) → (∀ v ∈ vs, v ∉ oddWords) →
    (∀ x, xs.getLast? = some x → kindOf x = .long → ∀ z, zs.getLast? = some z → ∃ c, z.rafsi.getLast? = some c ∧ Vowel c) →
    Represents .linked s n i vs zs → All2 (Came s) vs (zs.map Slot.rafsi) := by
  intro xs
  induction xs with
  | nil =>
    intro vs i zs ha _ _ _ _ h
    cases ha
    cases h
    exact .nil
  | cons x xs ih =>
    intro vs i zs ha hr hk ho hv h
    cases ha with
    | @cons v _ vs _ hc ha =>
      cases h with
      | @cons _ _ _ z zs hu hw h =>
        have hlen := all2_length ha
        have hz : zs.length = vs.length := by
          clear ih hv ho ha hlen
          revert h
          generalize i + 1 = j
          intro h
          induction h with
          | nil => rfl
          | cons _ _ _ ih => simp [ih]
        obtain ⟨hx, hdx⟩ := hr x (by simp)
        refine .cons ((came_usable hx hdx hc (ho v (by simp)) hu).2.2 ?_) (ih ha (fun y hy => hr y (by simp [hy])) ?_ (fun y hy => ho y (by simp [hy])) ?_ h)
        · intro hkl
          cases xs with
          | nil =>
            have : zs = [] := by
              rw [List.length_nil] at hlen
              rw [hlen] at hz
              exact List.length_eq_zero_iff.1 hz
            subst this
            exact hv x rfl hkl z rfl
          | cons y xs => exact absurd hkl (hk x (by simp))
        · intro y hy
          refine hk y ?_
          cases xs with
          | nil => simp at hy
          | cons q xs => rw [List.dropLast_cons_cons]; exact List.mem_cons_of_mem _ hy
        · intro y hy hkl z' hz'
          refine hv y ?_ hkl z' ?_
          · cases xs with
            | nil => simp at hy
            | cons q xs => rw [List.getLast?_cons_cons]; exact hy
          · cases zs with
            | nil => simp at hz'
            | cons q xs => rw [List.getLast?_cons_cons]; exact hz'

theorem veljvo_came {s : Settings} {g : Bool} {w : Str} {t : BType} {l m : List (Str × Str)} {vs : List Str} (ha : analyseBrivla .linked s w = .ok (t, flat m))
    (ht : t = .lujvo ∨ t = .cmevla) (hM : Made s g l) (hE : Ext s.yHyphens l m) (hv : getVeljvo .linked s w = .ok vs) :
    All2 (Came s) vs (l.map Prod.fst) := by
  have hr := ext_rafsi hE hM.canon hM.rafsi
  have hsel : selrafsiFrom .linked s (flat m) 0 (flat m) = .ok vs := by
    have := hv
    unfold getVeljvo at this
    rw [ha] at this
    simp only [ok_bind] at this
    rw [if_neg (by rcases ht with rfl | rfl <;> simp)] at this
    exact this
  have hfst := hE.fst
  have hlong : ∀ p ∈ m.dropLast, kindOf p.1 ≠ .long := by
    intro p hp
    have : p.1 ∈ (m.map Prod.fst).dropLast := by rw [← List.map_dropLast]; exact List.mem_map.2 ⟨p, hp, rfl⟩
    rw [← hfst, ← List.map_dropLast] at this
    obtain ⟨q, hq, e⟩ := List.mem_map.1 this
    exact e ▸ hM.long q hq
  have hend : ∀ p, m.getLast? = some p → p.2 = [] := by
    intro p hp
    obtain ⟨u, x, e⟩ := ext_end hE (canon_end hM.canon)
    rw [e] at hp
    simp at hp
    rw [← hp]
  rw [hfst]
  exact selrafsi_came (i := 0) hr hlong hend (ext_shortY hE (canon_shortY hM.canon)) rfl hsel

theorem made_ends {s : Settings} {g : Bool} {l : List (Str × Str)} {x : Str} (hM : Made s g l) (hx : (l.map Prod.fst).getLast? = some x) :
    (spell l).getLast? = x.getLast? := by
  obtain ⟨u, y, rfl⟩ := canon_end hM.canon
  simp at hx
  subst hx
  have hne : y ≠ [] := rafsi_ne (hM.rafsi (y, []) (by simp))
  simp only [spell, List.map_append, List.flatten_append, List.map_cons, List.map_nil, List.flatten_cons, List.flatten_nil, List.append_nil]
  rw [List.getLast?_append]
  cases hx : y.getLast? with
  | none => simp at hx; exact absurd hx hne
  | some c => simp

theorem stable {s : Settings} {g : Bool} {w w' : Str} {t : BType} {ps vs : List Str} {sc : Int} {ix : List (Nat × Nat)}
    (ha : analyseBrivla .linked s w = .ok (t, ps)) (ht : t = .lujvo ∨ t = .cmevla)
    (hm : ∃ l m, ps = flat m ∧ Made s g l ∧ Apt s g l ∧ Ext s.yHyphens l m ∧ ∀ p ∈ l, Diph p.1)
    (hv : getVeljvo .linked s w = .ok vs) (ho : ∀ v ∈ vs, v ∉ oddWords)
    (hg : getLujvoWithAnalytics .linked s g (.list vs) = .ok (w', sc, ix)) (hlen : w'.length < 10 ^ 96) :
    (∃ ps', analyseBrivla .linked s w' = .ok (if g then .cmevla else .lujvo, ps')) ∧ getVeljvo .linked s w' = .ok vs := by
  obtain ⟨l, m, rfl, hM, hA, hE, hd⟩ := hm
  have hC := veljvo_came ha ht hM hE hv
  have hN : ∀ v ∈ vs, reading v = v ∧ ∃ x, Came s v x ∧ Rafsi s.allowMz x ∧ Diph x := by
    intro v hvm
    obtain ⟨x, hx, h⟩ := all2_left hC v hvm
    obtain ⟨p, hp, rfl⟩ := List.mem_map.1 hx
    have hr := hM.rafsi p hp
    refine ⟨?_, p.1, h, hr, hd p hp⟩
    cases h with
    | found h =>
      rcases (search_known hr h (ho v hvm)).form with h | h
      · exact reading_letters (rafsi_letters (.gismu h))
      · exact reading_letters h.1
    | cut h hg e => exact spelled_reading (e ▸ (names_cut hg).spelled)
    | whole h hg e => exact spelled_reading (e ▸ (names_gismu hg).spelled)
    | rafsi h hx h1 h2 e => exact spelled_reading (e ▸ (names_dash hx).spelled)
  rw [getLujvoWithAnalytics_program] at hg
  obtain ⟨vs', hvs, hg2⟩ := bind_ok hg
  have := mapM_normalise_ok hvs
  have hrd : vs.map reading = vs := by
    conv => rhs; rw [← List.map_id vs]
    exact List.map_congr_left fun v hv => (hN v hv).1
  rw [hrd] at this
  subst this
  obtain ⟨zs, hy, hrep, hL, hw, hsc, hlay⟩ := found_slots hg2
  have hmem : ∀ z ∈ zs, ∃ v ∈ vs', ∃ x, Came s v x ∧ Rafsi s.allowMz x ∧ Diph x ∧ Usable .linked s v z.rafsi z.kind := by
    intro z hz
    obtain ⟨v, hvm, hu⟩ := represents_mem hrep z hz
    obtain ⟨-, x, h1, h2, h3⟩ := hN v hvm
    exact ⟨v, hvm, x, h1, h2, h3, hu⟩
  obtain ⟨l', h1, -, hM', h4⟩ := read_back_made (r := (w', sc, ix)) hg2 hrep hL hw hsc hlay
    (fun z hz => by
      obtain ⟨v, hvm, x, h1, h2, h3, hu⟩ := hmem z hz
      exact (came_usable h2 h3 h1 (ho v hvm) hu).1)
    (mixed_short (fun v hvm => by
        obtain ⟨-, x, h1, h2, h3⟩ := hN v hvm
        by_cases hp : Plain s.allowMz v
        · exact .inl hp
        · exact .inr fun x' k hu => (came_usable h2 h3 h1 (ho v hvm) hu).2.1.resolve_left hp) hrep hL (fun w' sc' hw' => by
      rw [← hsc]
      exact (getLujvoFromList_best.1 _ hg2).2 _ _ hw')) (fun _ => rfl) hlen
  refine ⟨⟨_, h1⟩, ?_⟩
  obtain ⟨vs1, hv1⟩ : ∃ vs1, getVeljvo .linked s w' = .ok vs1 := by
    obtain ⟨sc0, hsc⟩ := (C44_returns s w').2 ⟨_, _, h1, by cases g <;> simp⟩
    obtain ⟨vs1, hv1, -⟩ := bind_ok hsc
    exact ⟨vs1, hv1⟩
  have hC1 := veljvo_came h1 (by cases g <;> simp) hM' (Ext.refl _ _) hv1
  rw [h4] at hC1
  have hC2 := came_represents hC (fun x hx => by
      obtain ⟨p, hp, rfl⟩ := List.mem_map.1 hx
      exact ⟨hM.rafsi p hp, hd p hp⟩)
    (fun x hx => by
      rw [← List.map_dropLast] at hx
      obtain ⟨p, hp, rfl⟩ := List.mem_map.1 hx
      exact hM.long p hp) ho
    (fun x hx hk z hz => by
      obtain ⟨c, hc, hcv⟩ := hA.ends
      rw [made_ends hM hx] at hc
      cases g with
      | true =>
        exfalso
        obtain ⟨p, hp, e⟩ := List.mem_map.1 (List.mem_of_getLast? hx)
        have hr := hM.rafsi p hp
        rw [e] at hr
        have hrk := rafsi_rk hr
        rw [hk] at hrk
        simp only [if_true] at hcv
        cases hrk with
        | cvccv _ _ _ h => cases hc; exact vowel_not_consonant h hcv
        | ccvcv _ _ _ h => cases hc; exact vowel_not_consonant h hcv
      | false =>
        have hp := (C41_only_lujvo h1).2.vowel
        rw [flat_spell] at hp
        have hz' : (l'.map Prod.fst).getLast? = some z.rafsi := by rw [h4, List.getLast?_map, hz]; rfl
        rw [← made_ends hM' hz']
        exact hp) hrep
  rw [all2_det hC1 hC2] at hv1
  exact hv1

end Jvotci
