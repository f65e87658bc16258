import Verif.SpecVeljvo
import Verif.Lemmas.Remade
import Verif.Props.RafsiTable

/-!
# What get_veljvo shows for each piece
-/

namespace Jvotci

open Spec

/-- What is shown for the piece `x`, if the pieces `v` come after it. -/
def entryOf (s : Settings) (x : Str) (v : List Str) : Except Err Str :=
  let st : Settings := { yHyphens := s.yHyphens, allowMz := s.allowMz }
  match searchSelrafsi x with
  | some g => .ok g
  | none => do
    let nextY ← (if 1 < v.length then do
        let c ← idx ((v.head?).getD []) 0
        Except.ok (c == 'y')
      else Except.ok false)
    let y1 ← (if nextY then isBrivla .linked st (x ++ s%"a") else Except.ok false)
    if y1 then .ok (x ++ s%"-")
    else if ← isBrivla .linked st x then .ok x
    else
    let y3 ← (if v = [] then isBrivla .linked st (x ++ s%"a") else Except.ok false)
    if y3 then .ok (x ++ s%"-") else .ok (s%"-" ++ x ++ s%"-")

theorem formatPiece_entry {s : Settings} {u v : List Str} {x : Str} :
    formatPiece .linked s (u ++ x :: v) u.length x = entryOf s x v := by
  unfold formatPiece entryOf
  have h1 : (u.length + 2 < (u ++ x :: v).length) = (1 < v.length) := by simp; omega
  have h2 : (u ++ x :: v)[u.length + 1]? = v.head? := by
    rw [List.getElem?_append_right (by omega)]
    simp [List.head?_eq_getElem?]
  have h3 : (u.length + 1 = (u ++ x :: v).length) = (v = []) := by
    rw [eq_iff_iff, ← List.length_eq_zero_iff]
    simp
  cases searchSelrafsi x with
  | some g => rfl
  | none => simp only [h1, h2, h3]

/-- The list, from the pieces `l` on. -/
def entries (s : Settings) : List Str → Except Err (List Str)
  | [] => .ok []
  | x :: v =>
    if HYPHENS.contains x || x.isEmpty then entries s v
    else do
      let a ← entryOf s x v
      let r ← entries s v
      .ok (a :: r)

theorem selrafsi_entries {s : Settings} : ∀ {l u : List Str}, selrafsiFrom .linked s (u ++ l) u.length l = entries s l := by
  intro l
  induction l with
  | nil => intro u; rfl
  | cons x v ih =>
    intro u
    have := ih (u := u ++ [x])
    simp only [List.append_assoc, List.singleton_append, List.length_append, List.length_singleton] at this
    unfold selrafsiFrom entries
    rw [this, formatPiece_entry]

theorem getVeljvo_entries {s : Settings} {w : Str} {vs : List Str} (h : getVeljvo .linked s w = .ok vs) :
    ∃ t ps, analyseBrivla .linked s w = .ok (t, ps) ∧ t ≠ .gismu ∧ t ≠ .zihevla ∧ entries s ps = .ok vs := by
  obtain ⟨⟨t, ps⟩, ha, h1⟩ := bind_ok h
  dsimp only at h1
  split at h1
  · cases h1
  · rename_i ht
    simp only [not_or] at ht
    exact ⟨t, ps, ha, ht.1, ht.2, by rw [← selrafsi_entries (u := [])]; exact h1⟩

theorem search_stands {r g : Str} (h : searchSelrafsi r = some g) : StandsFor r g := by
  unfold searchSelrafsi at h
  dsimp only at h
  split at h
  · rename_i g' hf
    cases h
    split at hf
    · rename_i hc
      left
      obtain ⟨h1, as, bs, e, hno⟩ := List.find?_eq_some_iff_append.1 hf
      obtain ⟨a, b', e1, e2, e3⟩ := List.map_eq_append_iff.1 e
      obtain ⟨v, b, rfl, rfl, -⟩ := List.map_eq_cons_iff.1 e3
      refine ⟨hc.2.1, by simpa using hc.2.2, hc.1, a, v, b, e1, rfl, lookup_isSome.1 h1, ?_⟩
      intro u hu rs hrs
      have := hno (r ++ [u]) (by rw [← e2]; exact List.mem_map.2 ⟨u, hu, rfl⟩)
      rw [lookup_isSome.2 ⟨rs, hrs⟩] at this
      cases this
    · cases hf
  · rename_i hf
    rw [Option.map_eq_some_iff] at h
    obtain ⟨⟨w, rs⟩, hf2, rfl⟩ := h
    right
    refine ⟨?_, rs, List.mem_of_find?_eq_some hf2, by simpa using List.find?_some hf2⟩
    rintro w ⟨h4, hq, hb, a, v, b, e, rfl, ⟨rs', hrs⟩, -⟩
    rw [if_pos ⟨hb, h4, by simpa using hq⟩, List.find?_eq_none] at hf
    exact hf _ (List.mem_map.2 ⟨v, by rw [e]; simp, rfl⟩) (lookup_isSome.2 ⟨rs', hrs⟩)

theorem stands_selrafsi {r w : Str} (h : StandsFor r w) : Selrafsi r w := by
  rcases h with ⟨h4, hq, hb, a, v, b, e, rfl, ⟨rs, hrs⟩, -⟩ | ⟨-, h⟩
  · refine .inr ⟨h4, hq, hb, v, rs, ?_, rfl, hrs⟩
    have : v ∈ s%"aeiou" := by rw [e]; simp
    simpa [Vowel] using this
  · exact .inl h

theorem search_noStands {r : Str} (h : searchSelrafsi r = none) (g : Str) : ¬ StandsFor r g :=
  fun h' => searchSelrafsi_none h g (stands_selrafsi h')

/-- Four letters, none an apostrophe: a gismu without its last vowel. -/
theorem rafsi_stem {mz : Bool} {x : Str} (h : Rafsi mz x) (h4 : x.length = 4 ∧ '\'' ∉ x) : Gismu mz (x ++ s%"a") := by
  have ha : Vowel 'a' := by decide
  cases h with
  | cvv => simp at h4
  | cvhv => simp at h4
  | cvc => simp at h4
  | ccv => simp at h4
  | cvcc h1 h2 h3 => exact .cvccv h1 h2 h3 ha
  | ccvc h1 h2 h3 => exact .ccvcv h1 h2 h3 ha
  | gismu h => have : x.length = 5 := by cases h <;> rfl
               omega

theorem rafsi_five {mz : Bool} {x : Str} (h : Rafsi mz x) (h5 : x.length = 5) : Gismu mz x := by
  cases h with
  | gismu h => exact h
  | _ => simp at h5

theorem gismu_noApos5 {mz : Bool} {x : Str} (h : Gismu mz x) : x.length = 5 ∧ '\'' ∉ x := by
  have hv : ∀ {c : Char}, Vowel c → '\'' ≠ c := by rintro c h rfl; exact absurd h (by decide)
  have hc : ∀ {c : Char}, Consonant c → '\'' ≠ c := by rintro c h rfl; exact absurd h (by decide)
  cases h with
  | cvccv h1 h2 h3 h4 => exact ⟨rfl, by simp [hc h1, hv h2, hc h3.1, hc h3.2.1, hv h4]⟩
  | ccvcv h1 h2 h3 h4 =>
    have := initial_cons h1
    exact ⟨rfl, by simp [hc ((isConsonant_iff _).1 this.1), hc ((isConsonant_iff _).1 this.2), hv h2, hc h3, hv h4]⟩

theorem entry_rafsi {s : Settings} {x e : Str} {v : List Str} (hr : Rafsi s.allowMz x)
    (hs : x.length = 4 ∧ '\'' ∉ x → v = [] ∨ ∃ g q t, v = ('y' :: g) :: q :: t)
    (hg : x.length = 5 → ∀ g t, v ≠ ('y' :: g) :: t) (h : entryOf s x v = .ok e) : ShownRafsi x e := by
  unfold entryOf at h
  dsimp only at h
  split at h
  · rename_i g hf
    cases h
    exact .inl (search_stands hf)
  · rename_i hf
    refine .inr ⟨search_noStands hf, ?_⟩
    obtain ⟨ny, hny, h⟩ := bind_ok h
    obtain ⟨y1, hy1, h⟩ := bind_ok h
    have h5 : Gismu s.allowMz x → x.length = 5 := fun hg => by cases hg <;> rfl
    have hnl : ny = true → x.length ≠ 5 := by
      rintro rfl h5
      split at hny
      · obtain ⟨c, hc, hcy⟩ := bind_ok hny
        cases v with
        | nil => simp at *
        | cons g t =>
          cases g with
          | nil => cases hc
          | cons a g =>
            cases hc
            simp at hcy
            subst hcy
            exact hg h5 g t rfl
      · cases hny
    have hcut : ∀ {y}, isBrivla .linked { yHyphens := y, allowMz := s.allowMz } (x ++ s%"a") = .ok true → x.length ≠ 5 →
        x.length = 4 ∧ '\'' ∉ x := by
      intro y hb hn
      have := rafsi_a_brivla hr (fun hg => hn (h5 hg)) hb
      have h1 := gismu_noApos5 this
      simp only [List.length_append, List.length_singleton] at h1
      exact ⟨by omega, fun hq => h1.2 (List.mem_append_left _ hq)⟩
    split at h
    · rename_i hy
      subst hy
      cases h
      split at hy1
      · rename_i hn
        have h4 := hcut hy1 (hnl hn)
        rw [if_neg (by omega), if_pos h4]
      · cases hy1
    · rename_i hy1f
      obtain ⟨y2, hy2, h⟩ := bind_ok h
      split at h
      · rename_i hy
        subst hy
        cases h
        rw [if_pos (h5 (rafsi_brivla hr hy2))]
      · rename_i hy
        have hng : x.length ≠ 5 := by
          intro h5'
          rw [gismu_brivla (rafsi_five hr h5')] at hy2
          cases hy2
          exact hy rfl
        obtain ⟨y3, hy3, h⟩ := bind_ok h
        split at h
        · rename_i hy
          subst hy
          cases h
          split at hy3
          · rw [if_neg hng, if_pos (hcut hy3 hng)]
          · cases hy3
        · rename_i hy3f
          cases h
          rw [if_neg hng, if_neg]
          intro h4
          have hb := gismu_brivla (b := .linked) (rafsi_stem hr h4)
          rcases hs h4 with rfl | ⟨g, q, t, rfl⟩
          · rw [if_pos rfl, hb] at hy3
            cases hy3
            exact hy3f rfl
          · rw [if_pos (by simp)] at hny
            have : ny = true := by
              cases hny
              rfl
            rw [this, if_pos rfl, hb] at hy1
            cases hy1
            exact hy1f rfl

theorem entries_hyphen {s : Settings} {x : Str} {v : List Str} (h : Hyphen x) : entries s (x :: v) = entries s v := by
  conv => lhs; unfold entries
  rw [hyphens_iff.2 h]
  rfl

theorem entries_piece {s : Settings} {x : Str} {v r : List Str} (hx : (HYPHENS.contains x || x.isEmpty) = false) (h : entries s (x :: v) = .ok r) :
    ∃ e r', entryOf s x v = .ok e ∧ entries s v = .ok r' ∧ r = e :: r' := by
  unfold entries at h
  rw [hx] at h
  obtain ⟨e, he, h⟩ := bind_ok h
  obtain ⟨r', hr, h⟩ := bind_ok h
  cases h
  exact ⟨e, r', he, hr, rfl⟩

theorem entries_reading {s : Settings} {rest : List Str} : ∀ {ps r : List Str}, (∀ u p q v, ps = u ++ p :: q :: v → Link s.yHyphens s.allowMz p q) →
    (∃ x, ps.getLast? = some x ∧ Rafsi s.allowMz x) →
    (∀ x, ps.getLast? = some x → (x.length = 4 ∧ '\'' ∉ x → rest = [] ∨ ∃ g q t, rest = ('y' :: g) :: q :: t) ∧
      (x.length = 5 → ∀ g t, rest ≠ ('y' :: g) :: t)) →
    entries s (ps ++ rest) = .ok r → ∃ e r', r = e ++ r' ∧ All2 ShownRafsi (ps.filter (fun x => ¬ Hyphen x)) e ∧ entries s rest = .ok r' := by
  intro ps
  induction ps with
  | nil => rintro r - ⟨x, h, -⟩; cases h
  | cons x ps ih =>
    intro r hl hlast hctx h
    have hnh : ∀ {x : Str}, Rafsi s.allowMz x → ¬ Hyphen x := by
      intro x hx hh
      have := rafsi_notHyphen hx
      rw [hyphens_iff.2 hh] at this
      cases this
    cases ps with
    | nil =>
      obtain ⟨x', hx', hr⟩ := hlast
      cases hx'
      obtain ⟨c1, c2⟩ := hctx x rfl
      obtain ⟨e, r', he, hr', rfl⟩ := entries_piece (rafsi_notHyphen hr) h
      refine ⟨[e], r', rfl, ?_, hr'⟩
      rw [List.filter_cons_of_pos (by simpa using hnh hr)]
      exact .cons (entry_rafsi hr c1 c2 he) .nil
    | cons z ps =>
      have hl' : ∀ u p q v, z :: ps = u ++ p :: q :: v → Link s.yHyphens s.allowMz p q := fun u p q v e => hl (x :: u) p q v (by rw [e]; rfl)
      have hlast' : ∃ x, (z :: ps).getLast? = some x ∧ Rafsi s.allowMz x := by simpa using hlast
      have hctx' := fun y hy => hctx y (by rw [List.getLast?_cons_cons]; exact hy)
      have hps : Hyphen z → ps ≠ [] := by
        rintro hz rfl
        obtain ⟨y, hy, hr⟩ := hlast'
        cases hy
        exact hnh hr hz
      have hlk := hl [] x z ps rfl
      have hyph : Hyphen x → ∃ e r', r = e ++ r' ∧ All2 ShownRafsi ((x :: z :: ps).filter (fun x => ¬ Hyphen x)) e ∧ entries s rest = .ok r' := by
        intro hx
        rw [List.cons_append, entries_hyphen hx] at h
        rw [List.filter_cons_of_neg (by simpa using hx)]
        exact ih hl' hlast' hctx' h
      have raf : Rafsi s.allowMz x → (x.length = 4 ∧ '\'' ∉ x → z = s%"y") → x.length ≠ 5 →
          ∃ e r', r = e ++ r' ∧ All2 ShownRafsi ((x :: z :: ps).filter (fun x => ¬ Hyphen x)) e ∧ entries s rest = .ok r' := by
        intro hx hs h5
        obtain ⟨e, r', he, hr', rfl⟩ := entries_piece (rafsi_notHyphen hx) h
        obtain ⟨es, r2, rfl, ha, hr2⟩ := ih hl' hlast' hctx' hr'
        refine ⟨e :: es, r2, rfl, ?_, hr2⟩
        rw [List.filter_cons_of_pos (by simpa using hnh hx)]
        refine .cons (entry_rafsi hx ?_ (fun h => absurd h h5) he) ha
        intro h4
        have := hs h4
        subst this
        right
        cases ps with
        | nil => exact absurd rfl (hps (by decide))
        | cons q t => exact ⟨[], q, t ++ rest, rfl⟩
      have short : Short x → (x.length = 4 ∧ '\'' ∉ x → z = s%"y") ∧ x.length ≠ 5 := by
        rintro (h | ⟨h, h'⟩)
        · exact ⟨fun h' => by omega, by omega⟩
        · exact ⟨fun h2 => absurd h' h2.2, by omega⟩
      cases hlk with
      | rafsi hx _ hs => exact raf hx (short hs).1 (short hs).2
      | y hx h5 => exact raf hx (fun _ => rfl) (by omega)
      | apostropheY _ hx hs => exact raf hx (short hs).1 (short hs).2
      | rOrN _ hx hv =>
        have hs : Short x := by
          obtain ⟨c, a, b, -, -, rfl | rfl⟩ := hv
          · exact .inl rfl
          · exact .inr ⟨rfl, by simp⟩
        exact raf hx (short hs).1 (short hs).2
      | afterY hh =>
        refine hyph ?_
        simp at hh
        rcases hh with rfl | rfl <;> decide
      | afterR => exact hyph (by decide)
      | afterN => exact hyph (by decide)

end Jvotci
