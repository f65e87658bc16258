import Verif.Props.Back
import Verif.Props.Veljvo
import Verif.Props.RafsiTable

/-!
# C43: get_veljvo undoes get_lujvo

for the gismu of the table, unless the first four letters of one of them are shared with another (`C43_false`).
-/

namespace Jvotci

open Spec

namespace Spec

/-- The listed gismu whose first four letters are also those of a listed gismu that comes before them in the alphabet, and
the five with `brod`. -/
def sharedStems : List Str := [
  s%"broda", s%"brode", s%"brodi", s%"brodo", s%"brodu", s%"datru", s%"kamro", s%"lamdu", s%"lengu", s%"majgo",
  s%"nalfo", s%"nutko", s%"penki", s%"ronti", s%"tcemi", s%"tcese", s%"tendo"]

/-- A listed word, a gismu or a cmavo, and not one of `sharedStems`. -/
structure Known (allowMz : Bool) (v : Str) : Prop where
  listed : ∃ rs, (v, rs) ∈ RAFSI_LIST
  form : Gismu allowMz v ∨ CmavoForm v
  own : v ∉ sharedStems

end Spec

/-- Numbers for the first four letters of the words of five letters, without apostrophe, that are not in `sharedStems`. -/
def stemCodes : List Nat :=
  (RAFSI_LIST.filter (fun e => e.1.length == 5 && !e.1.contains '\'' && !sharedStems.contains e.1)).map (fun e => code (e.1.take 4))

theorem stemCodes_nodup : stemCodes.Nodup := bucketsB_iff (by decide +kernel)

theorem nodup_map {α β : Type} {f : α → β} : ∀ {l : List α}, (l.map f).Nodup → ∀ {a b : α}, a ∈ l → b ∈ l → f a = f b → a = b
  | [], _, _, _, h, _, _ => by cases h
  | x :: l, hn, a, b, ha, hb, e => by
    rw [List.map_cons, List.nodup_cons] at hn
    rcases List.mem_cons.1 ha with rfl | ha' <;> rcases List.mem_cons.1 hb with rfl | hb'
    · rfl
    · exact absurd (by rw [e]; exact List.mem_map_of_mem hb') hn.1
    · exact absurd (by rw [← e]; exact List.mem_map_of_mem ha') hn.1
    · exact nodup_map hn.2 ha' hb' e

theorem stem_unique {v v' : Str} {rs rs' : List Str} (h : (v, rs) ∈ RAFSI_LIST) (h' : (v', rs') ∈ RAFSI_LIST) (h5 : v.length = 5)
    (h5' : v'.length = 5) (hq : '\'' ∉ v) (hq' : '\'' ∉ v') (hn : v ∉ sharedStems) (hn' : v' ∉ sharedStems) (e : v.take 4 = v'.take 4) : v = v' := by
  have := nodup_map stemCodes_nodup (a := (v, rs)) (b := (v', rs')) (by simp [h, h5, hq, hn]) (by simp [h', h5', hq', hn']) (by rw [e])
  simp at this
  exact this.1

theorem shared_lost : ∀ v ∈ sharedStems, searchSelrafsi (v.take 4) ≠ some v := by
  have : sharedStems.all (fun v => searchSelrafsi (v.take 4) != some v) = true := by decide +kernel
  intro v hv
  simpa using List.all_eq_true.1 this v hv

theorem shared_brod : ∀ v, v.take 4 = s%"brod" → v.length = 5 → (∃ rs, (v, rs) ∈ RAFSI_LIST) → v ∈ sharedStems := by
  rintro v e h5 ⟨rs, h⟩
  have : RAFSI_LIST.all (fun e => !(e.1.length == 5 && e.1.take 4 == s%"brod") || sharedStems.contains e.1) = true := by decide +kernel
  have := List.all_eq_true.1 this _ h
  simpa [h5, e] using this

/-- What stands for `v` is traced back to `v`. -/
theorem usable_search {b : Build} {s : Settings} {v x : Str} {k : Kind} (hv : Known s.allowMz v) (h : Usable b s v x k) :
    searchSelrafsi x = some v ∨ (x = v ∧ Gismu s.allowMz v ∧ kindOf x = .long ∧ searchSelrafsi x = none) := by
  rcases plain_usable hv.form h with ⟨rs, h1, h2⟩ | ⟨hg, ⟨-, c, e⟩ | ⟨h1, rfl⟩⟩
  · exact .inl (C29_rafsi_table h1 h2).2.2.2
  · left
    subst e
    obtain ⟨hr, h4, hk, hc⟩ := gismu_cut hg
    have hq : '\'' ∉ x := by
      have hrk := rafsi_rk hr
      rw [hk] at hrk
      have hcq : ∀ {a : Char}, Consonant a → '\'' ≠ a := fun h e => by subst e; revert h; decide
      have hvq : ∀ {a : Char}, Vowel a → '\'' ≠ a := fun h e => by subst e; revert h; decide
      cases hrk with
      | cvcc h1 h2 h3 =>
        simp only [List.mem_cons, List.not_mem_nil, or_false, not_or]
        exact ⟨hcq h1, hvq h2, hcq h3.1, hcq h3.2.1⟩
      | ccvc h1 h2 h3 =>
        simp only [List.mem_cons, List.not_mem_nil, or_false, not_or]
        exact ⟨hcq (initial_consonants h1).1, hcq (initial_consonants h1).2, hvq h2, hcq h3⟩
    have ht : (x ++ [c]).take 4 = x := by rw [← h4, List.take_left]
    cases hs : searchSelrafsi x with
    | none =>
      exfalso
      obtain ⟨rs, hl⟩ := hv.listed
      refine searchSelrafsi_none hs (x ++ [c]) (.inr ⟨h4, hq, ?_, c, rs, hc, rfl, hl⟩)
      intro e
      exact hv.own (shared_brod _ (by rw [ht, e]) (by simp [h4]) ⟨rs, hl⟩)
    | some g =>
      rcases searchSelrafsi_some hs with ⟨rs, h1, h2⟩ | ⟨-, -, -, u, rs, hu, e, hl⟩
      · exfalso
        rcases (C29_rafsi_table h1 h2).2.1 with h | ⟨a, b, c, h⟩
        · omega
        · rw [h] at hq; simp at hq
      · subst e
        obtain ⟨rs', hl'⟩ := hv.listed
        have hu4 : (x ++ [u]).take 4 = x := by rw [← h4, List.take_left]
        have hvq : ∀ {a : Char}, Vowel a → '\'' ≠ a := fun h e => by subst e; revert h; decide
        rw [stem_unique hl hl' (by simp [h4]) (by simp [h4]) (by simp [hq, hvq hu]) (by simp [hq, hvq hc]) ?_ hv.own (by rw [ht, hu4])]
        intro hm
        have := shared_lost _ hm
        rw [hu4] at this
        exact this hs
  · right
    refine ⟨rfl, hg, gismu_long hg (.gismu hg), ?_⟩
    have h5 : x.length = 5 := by cases hg <;> rfl
    cases hs : searchSelrafsi x with
    | none => rfl
    | some g =>
      rcases searchSelrafsi_some hs with ⟨rs, h1, h2⟩ | ⟨h4, -⟩
      · exfalso
        rcases (C29_rafsi_table h1 h2).2.1 with h | ⟨a, b, c, h⟩
        · omega
        · rw [h] at h5; simp at h5
      · omega

theorem formatPiece_last {b : Build} {s : Settings} {pieces : List Str} {i : Nat} {x : Str} (hg : Gismu s.allowMz x) (hs : searchSelrafsi x = none)
    (hi : i + 1 = pieces.length) : formatPiece b s pieces i x = .ok x := by
  unfold formatPiece
  have : isBrivla b { yHyphens := s.yHyphens, allowMz := s.allowMz } x = .ok true := by
    unfold isBrivla
    have hne : x ≠ [] := by rintro rfl; cases hg
    have hrd := reading_letters (rafsi_letters (.gismu hg))
    rw [(C03_gismu_iff (ps := [x])).2 ⟨hne, by rw [hrd]; exact hg, by rw [hrd]⟩]
    rfl
  rw [hs]
  have h2 : ¬ i + 2 < pieces.length := by omega
  simp only [h2, if_false, ok_bind, this, Bool.false_eq_true, if_true]

theorem selrafsi_flat {b : Build} {s : Settings} {mz : Bool} {pieces : List Str} {z vz : Str}
    (hz : ∀ i, i + 1 = pieces.length → formatPiece b s pieces i z = .ok vz) (hzr : Rafsi mz z) :
    ∀ {u : List (Str × Str)} {us : List Str} {i : Nat}, (∀ p ∈ u, Rafsi mz p.1 ∧ Glue p.2) →
    All2 (fun v (p : Str × Str) => searchSelrafsi p.1 = some v) us u → i + (flat (u ++ [(z, [])])).length = pieces.length →
    selrafsiFrom b s pieces i (flat (u ++ [(z, [])])) = .ok (us ++ [vz]) := by
  have hnh : ∀ {x : Str}, Rafsi mz x → (HYPHENS.contains x || x.isEmpty) = false := by
    intro x hx
    have hl := rafsi_length hx
    rw [Bool.or_eq_false_iff]
    constructor
    · cases hc : HYPHENS.contains x with
      | false => rfl
      | true =>
        exfalso
        have := hyphens_iff.1 hc
        obtain ⟨a, b, t, rfl, -, ha⟩ := rafsi_double hx
        have := consonant_ne_y ha
        simp only [Hyphen, List.mem_cons, List.not_mem_nil, or_false] at *
        simp at hl
        grind
    · cases x with
      | nil => simp at hl
      | cons => rfl
  intro u
  induction u with
  | nil =>
    intro us i _ h hi
    cases h
    simp only [List.nil_append, flat_bare, flat_nil] at hi ⊢
    unfold selrafsiFrom
    rw [hnh hzr]
    simp only [Bool.false_eq_true, if_false, hz i (by simpa using hi), selrafsiFrom, ok_bind]
  | cons p u ih =>
    intro us i hr h hi
    obtain ⟨x, h0⟩ := p
    cases h with
    | @cons v _ us _ hs h =>
      obtain ⟨hx, hg⟩ := hr (x, h0) (by simp)
      have ih := fun i => ih (i := i) (fun q hq => hr q (List.mem_cons_of_mem _ hq)) h
      have hf : ∀ i, formatPiece b s pieces i x = .ok v := by
        intro i
        unfold formatPiece
        rw [hs]
      rw [List.cons_append] at hi ⊢
      by_cases hn : h0 = []
      · subst hn
        rw [flat_bare] at hi ⊢
        unfold selrafsiFrom
        rw [hnh hx]
        simp only [List.length_cons] at hi
        simp only [Bool.false_eq_true, if_false, hf, ih (i + 1) (by omega), ok_bind, List.cons_append]
      · rw [flat_hyphen hn] at hi ⊢
        have hhh : (HYPHENS.contains h0 || h0.isEmpty) = true := by
          rw [hyphens_iff.2 (hg.hyphen hn)]; rfl
        unfold selrafsiFrom
        rw [hnh hx]
        simp only [List.length_cons] at hi
        unfold selrafsiFrom
        rw [hhh]
        simp only [Bool.false_eq_true, if_false, if_true, hf, ih (i + 1 + 1) (by omega), ok_bind, List.cons_append]

theorem all2_snoc {α β : Type} {r : α → β → Prop} : ∀ {l' : List β} {l : List α} {b : β}, All2 r l (l' ++ [b]) →
    ∃ l0 a, l = l0 ++ [a] ∧ All2 r l0 l' ∧ r a b
  | [], _, _, h => by
    cases h with
    | cons h1 h2 => cases h2; exact ⟨[], _, rfl, .nil, h1⟩
  | _ :: l', _, _, h => by
    cases h with
    | cons h1 h2 =>
      obtain ⟨l0, a, rfl, h3, h4⟩ := all2_snoc h2
      exact ⟨_ :: l0, a, rfl, .cons h1 h3, h4⟩

theorem all2_map {α β γ : Type} {r : α → γ → Prop} {f : β → γ} : ∀ {l' : List β} {l : List α}, All2 r l (l'.map f) → All2 (fun a b => r a (f b)) l l'
  | [], _, h => by cases h; exact .nil
  | _ :: _, _, h => by
    cases h with
    | cons h1 h2 => exact .cons h1 (all2_map h2)

theorem all2_imp {α β : Type} {r r' : α → β → Prop} {l : List α} {l' : List β} (h : All2 r l l') : (∀ a ∈ l, ∀ b ∈ l', r a b → r' a b) → All2 r' l l' := by
  induction h with
  | nil => intro _; exact .nil
  | cons h1 _ ih =>
    intro hi
    exact .cons (hi _ (by simp) _ (by simp) h1) (ih (fun a ha b hb => hi a (List.mem_cons_of_mem _ ha) b (List.mem_cons_of_mem _ hb)))

theorem represents_all2 {b : Build} {s : Settings} {n i : Nat} {vs : List Str} {zs : List Slot} (h : Represents b s n i vs zs) :
    All2 (fun v x => ∃ k, Usable b s v x k) vs (zs.map Slot.rafsi) := by
  induction h with
  | nil => exact .nil
  | cons hu _ _ ih => exact .cons ⟨_, hu⟩ ih

/-- **C43** (partial). For a tanru of listed gismu and cmavo, `get_veljvo` returns the words that `get_lujvo` made the word of.
Missing: words that are not listed, and gismu that share their first four letters with another one, for which it is false. -/
theorem C43_round_trip_partial {b : Build} {s : Settings} {g : Bool} {t : Tanru} {ws : List Str} {w : Str}
    (hws : Words t ws) (hv : ∀ v ∈ ws, Known s.allowMz (reading v)) (h : getLujvo b s g t = .ok w) (hlen : w.length < 10 ^ 96) :
    getVeljvo b s w = .ok (ws.map reading) := by
  obtain ⟨⟨w', sc, ix⟩, h', hw⟩ := bind_ok h
  cases hw
  dsimp only at hlen ⊢
  obtain ⟨l, zs, h1, -, hM, e, hrep⟩ := plain_made hws (fun v hvm => (hv v hvm).form) h' hlen
  have hu := represents_all2 hrep
  rw [← e] at hu
  have hu := all2_map hu
  obtain ⟨u, z, rfl⟩ := canon_end hM.canon
  obtain ⟨us, vz, evs, hus, k, hz⟩ := all2_snoc hu
  have hdist : ∀ v ∈ ws.map reading, Known s.allowMz v := by
    intro v hvm
    obtain ⟨v', hvm', rfl⟩ := List.mem_map.1 hvm
    exact hv v' hvm'
  have hrz := hM.rafsi (z, []) (by simp)
  unfold getVeljvo
  rw [h1, ok_bind]
  have ht : ¬ ((if g then BType.cmevla else BType.lujvo) = .gismu ∨ (if g then BType.cmevla else BType.lujvo) = .zihevla) := by
    cases g <;> simp
  simp only [ht, if_false]
  unfold selrafsiList
  rw [evs]
  refine selrafsi_flat (mz := s.allowMz) ?_ hrz ?_ ?_ (by simp)
  · intro i hi
    rcases usable_search (hdist vz (by rw [evs]; simp)) hz with hs | ⟨e, hg, -, hs⟩
    · unfold formatPiece; rw [hs]
    · rw [← e] at hg ⊢
      exact formatPiece_last hg hs hi
  · intro p hp
    exact ⟨hM.rafsi p (by simp [hp]), canon_glue hM.canon p (by simp [hp])⟩
  · refine all2_imp hus ?_
    rintro v hvm p hp ⟨k, hpk⟩
    rcases usable_search (hdist v (by rw [evs]; simp [hvm])) hpk with hs | ⟨-, -, hk, -⟩
    · exact hs
    · exact absurd hk (hM.long p (by simp [hp]))

example : getLujvo .linked {} false (.str s%"fagri genxu karce moklu") = .ok s%"fagygexykarcymo'u" ∧
    getVeljvo .linked {} s%"fagygexykarcymo'u" = .ok [s%"fagri", s%"genxu", s%"karce", s%"moklu"] := by decide +kernel

/-- Words that meet the hypothesis. -/
example : ∀ v ∈ [s%"fagri", s%"genxu", s%"karce", s%"co'a"], Known false v := by
  have h1 : ∀ v ∈ [s%"fagri", s%"genxu", s%"karce", s%"co'a"], v ∉ sharedStems := by decide +kernel
  have h2 : ∀ v ∈ [s%"fagri", s%"genxu", s%"karce"], isGismu false v = true := by decide +kernel
  have h3 : ∀ v ∈ [s%"fagri", s%"genxu", s%"karce", s%"co'a"], (RAFSI_LIST.find? (fun e => e.1 == v)).isSome = true := by decide +kernel
  intro v hv
  refine ⟨?_, ?_, h1 v hv⟩
  · have := h3 v hv
    rw [List.find?_isSome] at this
    obtain ⟨⟨v', rs⟩, hm, e⟩ := this
    rw [beq_iff_eq] at e
    cases e
    exact ⟨rs, hm⟩
  · by_cases e : v = s%"co'a"
    · subst e
      refine .inr ⟨by decide, ?_⟩
      rintro a b ⟨u, v, e⟩
      rcases u with _ | ⟨c1, _ | ⟨c2, _ | ⟨c3, _ | ⟨c4, u⟩⟩⟩⟩ <;>
        simp only [List.nil_append, List.cons_append, List.cons.injEq] at e
      · obtain ⟨rfl, rfl, -⟩ := e; decide
      · obtain ⟨-, rfl, rfl, -⟩ := e; decide
      · obtain ⟨-, -, rfl, rfl, -⟩ := e; decide
      · simp at e
      · simp at e
    · refine .inl (isGismu_iff.1 (h2 v ?_))
      simp only [List.mem_cons, List.not_mem_nil, or_false] at hv ⊢
      grind

/-- **C43** is false for every one of the words that are excluded and have no short rafsi: from the lujvo of `datru mlatu`, `get_veljvo` makes
`datro mlatu`. -/
theorem C43_false : ∀ v ∈ sharedStems, v ∉ [s%"broda", s%"brode", s%"majgo"] → ∃ w, getLujvo .linked {} false (.list [v, s%"mlatu"]) = .ok w ∧
    getVeljvo .linked {} w ≠ .ok [v, s%"mlatu"] := by
  have : (sharedStems.filter (fun v => !([s%"broda", s%"brode", s%"majgo"].contains v))).all (fun v => match getLujvo .linked {} false (.list [v, s%"mlatu"]) with
      | .ok w => getVeljvo .linked {} w != .ok [v, s%"mlatu"]
      | .error _ => false) = true := by decide +kernel
  intro v hv hn
  have := List.all_eq_true.1 this v (by rw [List.mem_filter]; exact ⟨hv, by simpa using hn⟩)
  split at this
  · exact ⟨_, ‹_›, by simpa using this⟩
  · cases this

example : getLujvo .linked {} false (.list [s%"datru", s%"mlatu"]) = .ok s%"datrymlatu" ∧
    getVeljvo .linked {} s%"datrymlatu" = .ok [s%"datro", s%"mlatu"] := by decide +kernel

end Jvotci
