import Verif.Props.Displayed
import Verif.Lemmas.GluedSlots
import Verif.Lemmas.Remade
import Verif.Lemmas.ExtStem

/-!
# Helper lemmas: making an extended lujvo again from what `get_veljvo` says about it
-/

namespace Jvotci

open Spec

theorem shown_names {s : Settings} {x v : Str} (hr : Rafsi s.allowMz x) (h : ShownRafsi x v) : Names s v x := by
  rcases h with (⟨h4, hq, -, a, u, b, e, rfl, ⟨rs, hl⟩, -⟩ | ⟨-, rs, hl, hx⟩) | ⟨-, rfl⟩
  · have hu : Vowel u := by
      have : u ∈ s%"aeiou" := by rw [e]; simp
      exact this
    rcases table_gismu hl (by simp [h4]) (by
      rw [List.mem_append]
      rintro (h | h)
      · exact hq h
      · simp at h; subst h; exact absurd hu (by decide)) with h | h
    · exact names_stem (gismu_mono h)
    · exfalso
      have : x = s%"Ping" := (List.append_inj' (t₁ := [u]) (t₂ := s%"o") h rfl).1
      subst this
      obtain ⟨c, t, e, hc⟩ := rafsi_first hr
      cases e
      exact absurd hc (by decide)
  · exact names_listed hr hl hx
  · have na : ∀ {c : Char}, Consonant c ∨ Vowel c → '\'' ≠ c := by
      rintro c h rfl
      rcases h with h | h <;> revert h <;> decide
    have ni : ∀ {a b : Char}, InitialPair a b → '\'' ≠ a ∧ '\'' ≠ b := fun h => by
      obtain ⟨h1, h2⟩ := initial_cons h
      exact ⟨na (.inl ((isConsonant_iff _).1 h1)), na (.inl ((isConsonant_iff _).1 h2))⟩
    have hnd := names_dash hr
    cases hr with
    | cvv => exact hnd
    | cvhv => rw [if_neg (by simp), if_neg (by simp)]; exact hnd
    | cvc => exact hnd
    | ccv => exact hnd
    | cvcc h1 h2 h3 =>
      rw [if_neg (by simp), if_pos ⟨rfl, by simp [na (.inl h1), na (.inr h2), na (.inl h3.1), na (.inl h3.2.1)]⟩]
      exact names_cut (.cvccv h1 h2 h3 (by decide))
    | ccvc h1 h2 h3 =>
      rw [if_neg (by simp), if_pos ⟨rfl, by simp [ni h1, na (.inr h2), na (.inl h3)]⟩]
      exact names_cut (.ccvcv h1 h2 h3 (by decide))
    | gismu hg =>
      rw [if_pos (gismu_small hg).1]
      exact names_gismu hg

theorem zwhole_type {s : Settings} {x : Str} (h : ZWhole s x) (hlen : x.length < 10 ^ 94) : WordType .linked s x .zihevla := by
  have hrd := reading_letters h.form.sounds.letters
  refine ⟨[x], (C45_zihevla hlen).2 ?_⟩
  rw [hrd]
  exact ⟨rfl, h.form, unreadable_gismu h.unreadable, fun qs hq => h.unreadable qs hq.reading, h.together, h.slinkuhi⟩

/-- Slots for the part of a word behind a y, up to and with the next y: `xs` are the rafsi, `txt` the letters, `e` the components. -/
structure Slotted (s : Settings) (last : Bool) (e : List Str) (zs : List Slot) (xs : List Str) (txt : Str) : Prop where
  ne : zs ≠ []
  rep : All2 (fun v z => Usable .linked s v (Slot.rafsi z) z.kind ∧ Spelled v ∧ v.length < 10 ^ 90) e zs
  unit : ∀ z ∈ zs, UnitOf s z.rafsi z.kind
  written : ∀ u z t, zs = u ++ z :: t → z.Written false (t.isEmpty && last)
  joints : ∀ y z, Beside zs y z → Joint s.allowMz y z
  rafsi : zs.map Slot.rafsi = xs
  text : (zs.map Slot.text).flatten = txt
  ends : last = false → ∀ z, zs.getLast? = some z → z.text.getLast? = some 'y'

theorem joint_y {mz : Bool} {y z : Slot} (h : y.text.getLast? = some 'y' ∨ y.text.getLast? = some '\'') : Joint mz y z := by
  have hb : ∀ t ∈ bannedTriples, t.head? ≠ some 'y' ∧ t.head? ≠ some '\'' := by decide
  refine ⟨?_, ?_, fun _ => h⟩
  · intro a b h1 _ hc _
    rw [h1] at h
    rcases h with h | h <;> cases h <;> exact absurd hc (by decide)
  · intro a h1 hm
    rw [h1] at h
    have := hb _ hm
    rcases h with h | h <;> cases h <;> simp at this

theorem beside_app {zs zs' : List Slot} {p q : Slot} (h : Beside (zs ++ zs') p q) :
    Beside zs p q ∨ Beside zs' p q ∨ (zs.getLast? = some p ∧ zs'.head? = some q) := by
  obtain ⟨u, v, e0⟩ := h
  rcases List.append_eq_append_iff.1 e0 with ⟨k, rfl, e⟩ | ⟨k, rfl, e⟩
  · exact .inr (.inl ⟨k, v, e⟩)
  · match k, e with
    | [], e => exact .inr (.inl ⟨[], v, e.symm⟩)
    | [a], e =>
      cases e
      exact .inr (.inr ⟨by simp, rfl⟩)
    | a :: b :: k, e =>
      cases e
      exact .inl ⟨u, k, by simp⟩

theorem all2_append {α β : Type} {r : α → β → Prop} {l l' : List α} {m m' : List β} (h : All2 r l m) (h' : All2 r l' m') : All2 r (l ++ l') (m ++ m') := by
  induction h with
  | nil => exact h'
  | cons h1 _ ih => exact .cons h1 ih

theorem Slotted.append {s : Settings} {last : Bool} {e e' xs xs' : List Str} {zs zs' : List Slot} {t t' : Str}
    (h : Slotted s false e zs xs t) (h' : Slotted s last e' zs' xs' t') : Slotted s last (e ++ e') (zs ++ zs') (xs ++ xs') (t ++ t') := by
  refine ⟨by simp [h.ne], all2_append h.rep h'.rep, ?_, ?_, ?_, by rw [List.map_append, h.rafsi, h'.rafsi],
    by rw [List.map_append, List.flatten_append, h.text, h'.text], ?_⟩
  · intro z hz
    rcases List.mem_append.1 hz with hz | hz
    · exact h.unit z hz
    · exact h'.unit z hz
  · intro u z r e0
    rcases List.append_eq_append_iff.1 e0 with ⟨k, rfl, e⟩ | ⟨k, e1, e⟩
    · exact h'.written k z r e
    · match k, e with
      | [], e => exact h'.written [] z r e.symm
      | a :: k, e =>
        injection e with e2 e3
        subst e2 e3
        have := h.written u z k e1
        have hne : (k ++ zs').isEmpty = false := by
          cases k with
          | nil => cases hz : zs' with
            | nil => exact absurd hz h'.ne
            | cons => rfl
          | cons => rfl
        rw [show (k.append zs').isEmpty = false from hne]
        simpa using this
  · intro y z hb
    rcases beside_app hb with hb | hb | ⟨h1, -⟩
    · exact h.joints y z hb
    · exact h'.joints y z hb
    · exact joint_y (.inl (h.ends rfl y h1))
  · intro hl z hz
    rw [List.getLast?_append] at hz
    cases hq : zs'.getLast? with
    | none => rw [List.getLast?_eq_none_iff] at hq; exact absurd hq h'.ne
    | some q =>
      rw [hq] at hz
      cases hz
      exact h'.ends hl _ hq

/-- The text of a rafsi that is not the first, with a hyphen or without. -/
def suffix (last trail : Bool) : Str := if last then [] else if trail then s%"'y" else s%"y"

theorem slotted_one {s : Settings} {last trail : Bool} {v x : Str} {k : Kind} (hu : UnitOf s x k) (hn : Usable .linked s v x k) (hs : Spelled v)
    (hlen : v.length < 10 ^ 90) (ht : Trailing false last x k (suffix last trail)) :
    Slotted s last [v] [⟨x, k, leading false x ++ x ++ suffix last trail⟩] [x] (leading false x ++ x ++ suffix last trail) := by
  refine ⟨by simp, .cons ⟨hn, hs, hlen⟩ .nil, by simpa using hu, ?_, ?_, rfl, by simp, ?_⟩
  · intro u z t e
    match u, e with
    | [], e =>
      cases e
      exact ⟨_, rfl, by simpa using ht⟩
    | a :: u, e =>
      have := congrArg List.length e
      simp at this
  · rintro y z ⟨u, v, e⟩
    have := congrArg List.length e
    simp at this
    omega
  · rintro rfl z hz
    obtain rfl : _ = z := Option.some.inj hz
    cases trail
    · simp [suffix]
    · simp [suffix]

/-- Rafsi that stand side by side. -/
theorem slotted_rafsi {s : Settings} {last trail : Bool} : ∀ {xs e : List Str}, xs ≠ [] → (∀ x ∈ xs, Rafsi s.allowMz x ∧ Diph x) →
    (∀ u p q v, xs = u ++ p :: q :: v → Link s.yHyphens s.allowMz p q) → All2 ShownRafsi xs e →
    (∀ x, xs.getLast? = some x → Trailing false last x (kindOf x) (suffix last trail)) →
    ∃ zs, Slotted s last e zs xs (xs.flatten ++ suffix last trail)
  | [], _, hne, _, _, _, _ => absurd rfl hne
  | [x], _, _, hr, _, .cons h1 .nil, ht => by
    have hx := hr x (by simp)
    have hn := shown_names hx.1 h1
    have := slotted_one (trail := trail) (.rafsi hx.1 hx.2) hn.usable hn.spelled hn.short (ht x rfl)
    rw [leading_rafsi hx.1] at this
    exact ⟨_, by simpa using this⟩
  | x :: x' :: xs, _, _, hr, hl, .cons h1 h2, ht => by
    have hx := hr x (by simp)
    have hx' := hr x' (by simp)
    have hn := shown_names hx.1 h1
    obtain ⟨zs, hz⟩ := slotted_rafsi (xs := x' :: xs) (by simp) (fun y hy => hr y (List.mem_cons_of_mem _ hy))
      (fun u p q v e => hl (x :: u) p q v (by rw [e]; rfl)) h2 (fun y hy => ht y (by rw [List.getLast?_cons_cons]; exact hy))
    have hk := hl [] x x' xs rfl
    have hyq := rafsi_notHyphen hx'.1
    generalize e1 : x = p at hk
    generalize e2 : x' = q at hk
    cases hk with
    | y => subst e2; simp [HYPHENS] at hyq
    | apostropheY => subst e2; simp [HYPHENS] at hyq
    | rOrN _ _ _ h => subst e2; simp at h; rcases h with rfl | rfl <;> simp [HYPHENS] at hyq
    | afterY h => have := rafsi_notHyphen hx.1; subst e1; simp at h; rcases h with rfl | rfl <;> simp [HYPHENS] at this
    | afterR => have := rafsi_notHyphen hx.1; subst e1; simp [HYPHENS] at this
    | afterN => have := rafsi_notHyphen hx.1; subst e1; simp [HYPHENS] at this
    | rafsi _ _ hsh hpair htri =>
      subst e1 e2
      have hkx := (kind_short hx.1).1 hsh
      match zs, hz with
      | [], hz => exact absurd rfl hz.ne
      | z :: zs, hz =>
        have hzr : z.rafsi = x' := by have := hz.rafsi; simp at this; exact this.1
        obtain ⟨h, hzt, -⟩ := hz.written [] z zs rfl
        rw [hzr, leading_rafsi hx'.1, List.nil_append] at hzt
        refine ⟨⟨x, kindOf x, x⟩ :: z :: zs, by simp, .cons ⟨hn.usable, hn.spelled, hn.short⟩ hz.rep, ?_, ?_, ?_, by simp [← hz.rafsi], ?_, ?_⟩
        · intro y hy
          rcases List.mem_cons.1 hy with rfl | hy
          · exact .rafsi hx.1 hx.2
          · exact hz.unit y hy
        · intro u y t e
          match u, e with
          | [], e =>
            cases e
            refine ⟨[], by simp [leading_rafsi hx.1], ?_⟩
            rcases hkx with h | h | h <;> simp [h, Trailing]
          | a :: u, e =>
            injection e with e3 e4
            exact hz.written u y t e4
        · intro y w hb
          rcases beside_cons.1 hb with ⟨rfl, rfl⟩ | hb
          · obtain ⟨a, b, t, hab, -, ha⟩ := rafsi_double hx'.1
            refine ⟨?_, ?_, ?_⟩
            · intro c d h1 h2 h3 h4
              rw [hzt, hab] at h2
              cases h2
              exact hpair c _ h1 (by rw [hab]; rfl) h3
            · intro c h1
              rw [hzt, hab]
              exact htri c a b t h1 hab
            · rintro (h1 | h1)
              · rw [hzt, hab] at h1
                cases h1
                exact absurd ha (by decide)
              · rw [hzr] at h1
                exact absurd hx'.1 (shape_rafsi h1)
          · exact hz.joints y w hb
        · have := hz.text
          simp only [List.map_cons, List.flatten_cons] at this ⊢
          rw [this]
          simp
        · intro hl y hy
          rw [List.getLast?_cons_cons] at hy
          exact hz.ends hl y hy

/-- The hyphen behind a rafsi, by its last letter. -/
theorem trailing_rafsi {mz last trail : Bool} {x : Str} (hr : Rafsi mz x) (h1 : trail = true → ∃ c, x.getLast? = some c ∧ Vowel c)
    (h2 : trail = false → last = false → ∃ c, x.getLast? = some c ∧ Consonant c) : Trailing false last x (kindOf x) (suffix last trail) := by
  obtain ⟨l, hl, hc, hv⟩ := rk_last (rafsi_rk hr)
  have hne := rafsi_kind hr
  unfold suffix
  cases last with
  | true =>
    simp only [if_true]
    cases hk : kindOf x with
    | vv => exact .inl rfl
    | ccv => exact .inl rfl
    | cvc => exact .inl rfl
    | short => exact .inr ⟨rfl, rfl, l, hl, fun h => vowel_not_consonant h (hc (.inr hk))⟩
    | long => exact .inr ⟨rfl, rfl⟩
    | exp => exact absurd hk hne
  | false =>
    simp only [Bool.false_eq_true, if_false]
    cases trail with
    | true =>
      obtain ⟨c, hc1, hc2⟩ := h1 rfl
      rw [hl] at hc1
      cases hc1
      have hcc := vowel_not_consonant hc2
      cases hk : kindOf x with
      | vv => exact .inr (.inr ⟨rfl, rfl, rfl⟩)
      | ccv => exact .inr rfl
      | cvc => exact absurd (hc (.inl hk)) hcc
      | short => exact absurd (hc (.inr hk)) hcc
      | long => exact .inl ⟨rfl, rfl⟩
      | exp => exact absurd hk hne
    | false =>
      obtain ⟨c, hc1, hc2⟩ := h2 rfl rfl
      rw [hl] at hc1
      cases hc1
      have hvv := fun h => vowel_not_consonant h hc2
      cases hk : kindOf x with
      | vv => exact absurd (hv (.inl hk)) hvv
      | ccv => exact absurd (hv (.inr (.inl hk))) hvv
      | cvc => exact .inr ⟨rfl, rfl⟩
      | short => exact .inl ⟨rfl, rfl⟩
      | long => exact absurd (hv (.inr (.inr hk))) hvv
      | exp => exact absurd hk hne

/-- The pieces of a part without r and n are rafsi. -/
theorem part_rafsi {s : Settings} {cm f last nl : Bool} {cl : Prop} {p : YPart} (h : RafsiPart s cm f last nl cl p) (hy : 'y' ∉ p.core)
    (hrn : s%"r" ∉ p.pieces ∧ s%"n" ∉ p.pieces) : (∀ x ∈ p.pieces, Rafsi s.allowMz x ∧ Diph x) ∧ p.pieces.filter (fun x => ¬ Hyphen x) = p.pieces := by
  have hR : ∀ x ∈ p.pieces, Rafsi s.allowMz x := by
    intro x hx
    rcases reading_pieces' h.reading x hx with hr | hr
    · exact hr
    · exfalso
      simp only [List.mem_cons, List.not_mem_nil, or_false] at hr
      rcases hr with rfl | rfl | rfl | rfl
      · exact hrn.1 hx
      · exact hrn.2 hx
      · exact hy (h.core ▸ List.mem_flatten.2 ⟨_, hx, by simp⟩)
      · exact hy (h.core ▸ List.mem_flatten.2 ⟨_, hx, by simp⟩)
  refine ⟨fun x hx => ⟨hR x hx, fun c a b e => h.reading.diphthongs x hx c a b e⟩, ?_⟩
  rw [List.filter_eq_self]
  intro x hx
  have := rafsi_notHyphen (hR x hx)
  simp only [decide_eq_true_eq]
  intro hh
  rw [hyphens_iff.2 hh] at this
  cases this

/-- What is known of a part that is a zi'evla. -/
theorem zihevla_unit {s : Settings} {f last nl : Bool} {cl : Prop} {p : YPart} {e : List Str} (h : ZihevlaPart s last nl cl p)
    (hexp : s.expRafsi = false) (hq : p.core.getLast? ≠ some '\'') (hy : 'y' ∉ p.core) (hlen : p.core.length + 2 < 10 ^ 90) (hk : p.kind = .zihevla)
    (hs : PartShown s p f last e) :
    ∃ v k, e = [v] ∧ UnitOf s p.core k ∧ Usable .linked s v p.core k ∧ Spelled v ∧ v.length < 10 ^ 90 ∧ ¬ VowelRafsi p.core ∧
      ((k = .long ∧ (p.trail = true ∨ last = true)) ∨ (k = .short ∧ p.trail = false ∧ last = false)) := by
  have h2 := h.syllables (.inr hexp)
  have hb : (10 : Nat) ^ 93 = 1000 * 10 ^ 90 := by decide
  have hW := zpart_whole h (by omega) h2
  unfold PartShown at hs
  rw [hk] at hs
  have he := hs.1 h2
  by_cases hc : p.trail = false ∧ last = false
  · have hw : p.whole last = p.core ++ s%"a" := if_pos hc
    rw [hw] at hW
    have hZ : ZCut s p.core := ⟨hW, fun hc => h.unreadable (.inr (.inr hc)), hq⟩
    rw [if_neg (by rw [hc.1, hc.2]; simp)] at he
    have hl := zcut_letters hZ
    have hne := zcut_ne hZ
    refine ⟨_, .short, he, .cut hZ, .cut (j := 0) rfl (letters_no_dash hl) (.inr (zwhole_type hW ?_)) ?_, ?_, ?_, zcut_not_vv hZ, .inr ⟨rfl, hc⟩⟩
    · have : (10 : Nat) ^ 94 = 10000 * 10 ^ 90 := by decide
      simp only [List.length_append, List.length_singleton]
      omega
    · intro _ hcc ps hps
      obtain ⟨h1, h2⟩ := (reading_iff hne hy).1 hps
      exact hZ.unreadable hcc ps h1 h2
    · refine ⟨p.core, 0, 1, rfl, ?_, hl, by simp, fun _ => hq⟩
      exact unit_vowel (.cut hZ)
    · simp; omega
  · have hw : p.whole last = p.core := if_neg hc
    rw [hw] at hW
    have hto : p.trail = true ∨ last = true := by
      cases ht : p.trail with
      | true => exact .inl rfl
      | false => cases last with
        | true => exact .inr rfl
        | false => exact absurd ⟨ht, rfl⟩ hc
    rw [if_pos hto] at he
    have hl := hW.form.sounds.letters
    refine ⟨_, .long, he, .whole hW, .word (fun h => letters_no_dash hl (List.mem_of_getLast? h)) (.inr (zwhole_type hW ?_)), ?_, by omega,
      zwhole_not_vv hW, .inl ⟨rfl, hto⟩⟩
    · have : (10 : Nat) ^ 94 = 10000 * 10 ^ 90 := by decide
      omega
    · exact letters_spelled hl (unit_vowel (.whole hW))

theorem part_leading {s : Settings} {cm last nl : Bool} {cl : Prop} {p : YPart} (h : PartOk s cm false last nl cl p)
    (hg : p.lead = true → ¬ Onglide p.core) : leading false p.core = if p.lead then s%"'" else [] := by
  unfold leading
  cases hl : p.lead with
  | true =>
    obtain ⟨-, x, t, syls, hrun, -⟩ := h.lead hl
    have hv : VowelInitial p.core := by
      rw [hrun.eq]
      match x, hrun.some, hrun.all with
      | a :: x, _, ha => exact ha a (by simp)
    rw [if_pos ⟨rfl, hv, hg hl⟩]
    rfl
  | false =>
    have := h.start hl
    simp only [Bool.false_eq_true, if_false] at this ⊢
    rw [if_neg]
    rintro ⟨-, hv, ho⟩
    rcases this with h | h
    · match hp : p.core with
      | [] => rw [hp] at h; exact h
      | a :: t => rw [hp] at h hv; exact vowel_not_consonant hv h
    · exact ho h

/-- Slots for a part that is not the first. -/
theorem slotted_part {s : Settings} {cm f last nl : Bool} {cl : Prop} {p : YPart} {e : List Str} (h : PartOk s cm false last nl cl p)
    (hexp : s.expRafsi = false) (hlen : p.core.length + 2 < 10 ^ 90) (hg : p.lead = true → ¬ Onglide p.core)
    (hrn : s%"r" ∉ p.pieces ∧ s%"n" ∉ p.pieces) (hs : PartShown s p f last e) :
    ∃ zs, Slotted s last e zs p.pieces (p.text ++ if last then [] else s%"y") := by
  have htx : p.text ++ (if last then [] else s%"y") = (if p.lead then s%"'" else []) ++ p.core ++ suffix last p.trail := by
    unfold YPart.text suffix
    cases ht : p.trail with
    | true =>
      have := (h.trail ht).1
      subst this
      simp
    | false => cases last <;> simp
  rw [htx, ← part_leading h hg]
  have hkind := h.kind
  cases hk : p.kind with
  | cvc =>
    rw [hk] at hkind
    obtain ⟨hp, hpc⟩ := hkind
    obtain ⟨a, b, c, e1, h1, h2, h3⟩ := tarmi_cvc.1 (pattern_cvc.1 hp)
    have hr : Rafsi s.allowMz p.core := by rw [e1]; exact .cvc ((isConsonant_iff _).1 h1) ((isVowel_iff _).1 h2) ((isConsonant_iff _).1 h3)
    have hl : p.core.getLast? = some c := by rw [e1]; rfl
    unfold PartShown at hs
    rw [hk] at hs
    simp only at hs
    rw [hpc] at hs ⊢
    rw [List.filter_cons_of_pos (by
      simp only [decide_eq_true_eq]
      intro hh
      have := rafsi_notHyphen hr
      rw [hyphens_iff.2 hh] at this
      cases this)] at hs
    obtain ⟨zs, hz⟩ := slotted_rafsi (s := s) (last := last) (trail := p.trail) (xs := [p.core]) (e := e) (by simp) (by
        intro x hx
        simp at hx
        subst hx
        refine ⟨hr, ?_⟩
        rw [e1]
        exact diph_consonant (.inr ((isConsonant_iff _).1 h3))) links_one hs (by
        intro x hx
        cases hx
        exact trailing_rafsi hr (fun ht => (h.trail ht).2) (fun _ _ => ⟨c, hl, (isConsonant_iff _).1 h3⟩))
    refine ⟨zs, ?_⟩
    rw [leading_rafsi hr]
    simpa using hz
  | rafsi =>
    rw [hk] at hkind
    obtain ⟨hR, hf⟩ := part_rafsi hkind h.noY hrn
    unfold PartShown at hs
    rw [hk] at hs
    simp only at hs
    rw [hf] at hs
    obtain ⟨q, hq, hqr⟩ := hkind.reading.last
    have hql : q.getLast? = p.core.getLast? := by
      obtain ⟨u, hu⟩ := List.getLast?_eq_some_iff.1 hq
      rw [← hkind.core, hu, List.flatten_append]
      obtain ⟨l, hl, -⟩ := rafsi_lastLetter hqr
      simp [List.getLast?_append, hl]
    obtain ⟨zs, hz⟩ := slotted_rafsi (s := s) (last := last) (trail := p.trail) (xs := p.pieces) (e := e) (by
        intro e
        rw [e] at hq
        cases hq) hR hkind.reading.links hs (by
        intro x hx
        rw [hq] at hx
        cases hx
        exact trailing_rafsi hqr (fun ht => hql ▸ (h.trail ht).2) (fun h1 h2 => hql ▸ hkind.ends h1 h2))
    refine ⟨zs, ?_⟩
    have hld : leading false p.core = [] := by
      obtain ⟨q0, hq0, hr0⟩ := hkind.reading.first
      obtain ⟨a, t, rfl, ha⟩ := rafsi_first hr0
      rw [← hkind.core]
      match hpp : p.pieces, hq0 with
      | _ :: r, rfl =>
        unfold leading
        rw [if_neg]
        rintro ⟨-, hv, -⟩
        exact vowel_not_consonant hv ((isConsonant_iff _).1 ha)
    rw [hld, ← hkind.core]
    simpa using hz
  | zihevla =>
    rw [hk] at hkind
    obtain ⟨v, k, rfl, hu, hU, hsp, hvl, -, hkk⟩ := zihevla_unit hkind hexp h.ends h.noY hlen hk hs
    rw [hkind.pieces]
    refine ⟨_, slotted_one hu hU hsp hvl ?_⟩
    rcases hkk with ⟨rfl, ht⟩ | ⟨rfl, ht, rfl⟩
    · cases last with
      | true => exact .inr ⟨rfl, rfl⟩
      | false =>
        rcases ht with ht | ht
        · exact .inl ⟨by simp [suffix, ht], rfl⟩
        · cases ht
    · exact .inl ⟨by simp [suffix, ht], rfl⟩
  | exp =>
    rw [hk] at hkind
    rw [hkind.option] at hexp
    cases hexp

theorem all2_one {α β : Type} {r : α → β → Prop} {a : α} {l : List β} (h : All2 r [a] l) : ∃ b, l = [b] ∧ r a b := by
  cases h with
  | cons h1 h2 => cases h2; exact ⟨_, rfl, h1⟩

theorem pattern_vowelRafsi {x : Str} (h : pattern x ∈ [s%"CVV", s%"CV'V"]) : VowelRafsi x := by
  simp only [List.mem_cons, List.not_mem_nil, or_false] at h
  rcases h with h | h
  · obtain ⟨a, b, c, rfl, h1, h2, h3⟩ := tarmi_cvv.1 (pattern_cvv.1 h)
    exact ⟨a, b, c, (isVowel_iff _).1 h2, (isVowel_iff _).1 h3, .inl rfl⟩
  · obtain ⟨a, b, c, rfl, h1, h2, h3⟩ := tarmi_cvhv.1 (pattern_cvhv.1 h)
    exact ⟨a, b, c, (isVowel_iff _).1 h2, (isVowel_iff _).1 h3, .inr rfl⟩

/-- A slot for the first part, if it is a single rafsi or a zi'evla. -/
theorem slotted_first {s : Settings} {cm f nl : Bool} {cl : Prop} {p : YPart} {e : List Str} (h : PartOk s cm true false nl cl p)
    (hfall : p.kind = .rafsi → VowelRafsi p.core → p.trail = true → s.yHyphens = .standard → nl = true) (hexp : s.expRafsi = false) (hlen : p.core.length + 2 < 10 ^ 90) (hone : p.pieces = [p.core])
    (hbegin : ∀ a b c, InitialPair a b → Vowel c → p.text ≠ [a, b, c, '\'']) (hs : PartShown s p f false e) :
    ∃ v z hy, e = [v] ∧ Usable .linked s v z.rafsi z.kind ∧ Spelled v ∧ v.length < 10 ^ 90 ∧ UnitOf s z.rafsi z.kind ∧ z.rafsi = p.core ∧
      z.Written true false ∧ z.text ++ hy = p.text ++ s%"y" ∧ (z.text.getLast? = some 'y' ∨ z.text.getLast? = some '\'') ∧ z.text ≠ z.rafsi ∧
      ∀ n z', (nl = true → z'.text.head? = some '\'') → FirstHyphen s cm n z z' hy := by
  have hlead : p.lead = false := by
    cases hl : p.lead with
    | false => rfl
    | true => have := (h.lead hl).1; cases this
  have htx : p.text ++ s%"y" = p.core ++ suffix false p.trail := by
    unfold YPart.text suffix
    rw [hlead]
    cases p.trail <;> simp
  have hlt : ∀ x, leading true x = [] := fun x => by unfold leading; rw [if_neg]; simp
  have hu : ∃ v k, e = [v] ∧ UnitOf s p.core k ∧ Usable .linked s v p.core k ∧ Spelled v ∧ v.length < 10 ^ 90 ∧ k ≠ .ccv ∧
      ((k = .vv ∧ p.trail = true ∧ (s.yHyphens = .standard → nl = true)) ∨ (k = .long ∧ p.trail = true) ∨ ((k = .cvc ∨ k = .short) ∧ p.trail = false)) := by
    have hkind := h.kind
    have of_rafsi : Rafsi s.allowMz p.core → Diph p.core → All2 ShownRafsi [p.core] e → kindOf p.core ≠ .ccv →
        (p.trail = false → ∃ c, p.core.getLast? = some c ∧ Consonant c) → (kindOf p.core = .vv → p.trail = true → s.yHyphens = .standard → nl = true) →
        ∃ v k, e = [v] ∧ UnitOf s p.core k ∧ Usable .linked s v p.core k ∧ Spelled v ∧ v.length < 10 ^ 90 ∧ k ≠ .ccv ∧
          ((k = .vv ∧ p.trail = true ∧ (s.yHyphens = .standard → nl = true)) ∨ (k = .long ∧ p.trail = true) ∨ ((k = .cvc ∨ k = .short) ∧ p.trail = false)) := by
      intro hr hd hsh hcc hend hff
      obtain ⟨v, rfl, hv⟩ := all2_one hsh
      have hn := shown_names hr hv
      refine ⟨v, kindOf p.core, rfl, .rafsi hr hd, hn.usable, hn.spelled, hn.short, hcc, ?_⟩
      have ht := trailing_rafsi (last := false) (trail := p.trail) hr (fun ht => (h.trail ht).2) (fun h1 _ => hend h1)
      have hne := rafsi_kind hr
      cases hk : kindOf p.core with
      | vv =>
        refine .inl ⟨rfl, ?_⟩
        rw [hk] at ht
        cases htr : p.trail with
        | true => exact ⟨rfl, hff hk htr⟩
        | false => rw [htr] at ht; simp [suffix, Trailing] at ht
      | ccv => exact absurd hk hcc
      | cvc =>
        rw [hk] at ht
        cases htr : p.trail with
        | true => rw [htr] at ht; simp [suffix, Trailing] at ht
        | false => simp
      | short =>
        rw [hk] at ht
        cases htr : p.trail with
        | true => rw [htr] at ht; simp [suffix, Trailing] at ht
        | false => simp
      | long =>
        rw [hk] at ht
        cases htr : p.trail with
        | true => simp
        | false => rw [htr] at ht; simp [suffix, Trailing] at ht
      | exp => exact absurd hk hne
    have hfilter : Rafsi s.allowMz p.core → p.pieces.filter (fun x => ¬ Hyphen x) = [p.core] := by
      intro hr
      rw [hone, List.filter_cons_of_pos (by
        simp only [decide_eq_true_eq]
        intro hh
        have := rafsi_notHyphen hr
        rw [hyphens_iff.2 hh] at this
        cases this)]
      rfl
    cases hk : p.kind with
    | cvc =>
      rw [hk] at hkind
      obtain ⟨a, b, c, e1, h1, h2, h3⟩ := tarmi_cvc.1 (pattern_cvc.1 hkind.1)
      have hr : Rafsi s.allowMz p.core := by rw [e1]; exact .cvc ((isConsonant_iff _).1 h1) ((isVowel_iff _).1 h2) ((isConsonant_iff _).1 h3)
      have hkc : kindOf p.core = .cvc := kind_cvc_iff.2 (pattern_cvc.1 hkind.1)
      unfold PartShown at hs
      rw [hk] at hs
      simp only at hs
      rw [hfilter hr] at hs
      refine of_rafsi hr (by rw [e1]; exact diph_consonant (.inr ((isConsonant_iff _).1 h3))) hs (by rw [hkc]; simp)
        (fun _ => ⟨c, by rw [e1]; rfl, (isConsonant_iff _).1 h3⟩) (by rw [hkc]; simp)
    | rafsi =>
      rw [hk] at hkind
      obtain ⟨q, hq, hr⟩ := hkind.reading.first
      rw [hone] at hq
      cases hq
      unfold PartShown at hs
      rw [hk] at hs
      simp only at hs
      rw [hfilter hr] at hs
      refine of_rafsi hr (fun c a b e => hkind.reading.diphthongs _ (by rw [hone]; simp) c a b e) hs ?_ (fun h1 => hkind.ends h1 rfl) ?_
      · intro hccv
        have hrk := rafsi_rk hr
        have htr : p.trail = true := by
          cases ht : p.trail with
          | true => rfl
          | false =>
            obtain ⟨l, hl, -, hv⟩ := rk_last hrk
            obtain ⟨c, hc, hcc⟩ := hkind.ends ht rfl
            rw [hl] at hc
            cases hc
            exact absurd hcc (vowel_not_consonant (hv (.inr (.inl hccv))))
        rw [hccv] at hrk
        generalize hcore : p.core = x at hrk
        cases hrk with
        | ccv h1 h2 => exact hbegin _ _ _ h1 h2 (by unfold YPart.text; rw [hlead, htr, hcore]; rfl)
      · intro hvv htr hstd
        exact hfall hk ((kind_vowelRafsi hr).2 hvv) htr hstd
    | zihevla =>
      rw [hk] at hkind
      obtain ⟨v, k, he, hu, hU, hsp, hvl, -, hkk⟩ := zihevla_unit hkind hexp h.ends h.noY hlen hk hs
      refine ⟨v, k, he, hu, hU, hsp, hvl, ?_, ?_⟩
      · rcases hkk with ⟨rfl, -⟩ | ⟨rfl, -⟩ <;> simp
      · rcases hkk with ⟨rfl, ht⟩ | ⟨rfl, ht, -⟩
        · exact .inr (.inl ⟨rfl, by simpa using ht⟩)
        · exact .inr (.inr ⟨.inr rfl, ht⟩)
    | exp =>
      rw [hk] at hkind
      rw [hkind.option] at hexp
      cases hexp
  obtain ⟨v, k, he, hu, hU, hsp, hvl, hccv, hcase⟩ := hu
  obtain ⟨l, hl, hll⟩ := unit_last hu
  by_cases hvv : k = .vv
  · subst hvv
    obtain ⟨ht, hst⟩ : p.trail = true ∧ (s.yHyphens = .standard → nl = true) := by
      rcases hcase with ⟨-, h⟩ | ⟨h, -⟩ | ⟨h, -⟩
      · exact h
      · cases h
      · rcases h with h | h <;> cases h
    refine ⟨v, ⟨p.core, .vv, p.core ++ s%"'"⟩, s%"y", he, hU, hsp, hvl, hu, rfl, ⟨s%"'", by simp [hlt], .inr (.inl ⟨rfl, rfl⟩)⟩,
      by rw [htx, ht]; simp [suffix], .inr (by simp), by simp, ?_⟩
    intro n z' hz
    refine .inl ⟨by simp, rfl, ?_⟩
    by_cases hstd : s.yHyphens = .standard
    · exact .inl (hz (hst hstd))
    · exact .inr hstd
  · have hyl : (p.core ++ suffix false p.trail).getLast? = some 'y' := by cases p.trail <;> simp [suffix]
    refine ⟨v, ⟨p.core, k, p.core ++ suffix false p.trail⟩, [], he, hU, hsp, hvl, hu, rfl, ⟨suffix false p.trail, by simp [hlt], ?_⟩,
      by rw [htx]; simp, .inl hyl, by cases p.trail <;> simp [suffix], ?_⟩
    · rcases hcase with ⟨h, -⟩ | ⟨rfl, ht⟩ | ⟨rfl | rfl, ht⟩
      · exact absurd h hvv
      · exact .inl ⟨by simp [suffix, ht], rfl⟩
      · exact .inr ⟨by simp [suffix, ht], rfl⟩
      · exact .inl ⟨by simp [suffix, ht], rfl⟩
    · intro n z' _
      refine .inr ⟨?_, ?_, ?_⟩
      · rw [hyl]; simp
      · rintro ⟨h1, -⟩
        exact hccv (unit_ccv hu h1).2
      · rw [if_neg]
        rintro ⟨h1, -⟩
        exact hvv (unit_vv hu (pattern_vowelRafsi h1)).2

theorem unit_consonant {s : Settings} {x : Str} {k : Kind} (h : UnitOf s x k) : ∃ c ∈ x, Consonant c := by
  cases h with
  | rafsi hr _ =>
    obtain ⟨a, t, rfl, ha⟩ := rafsi_first hr
    exact ⟨a, by simp, (isConsonant_iff _).1 ha⟩
  | whole hz =>
    obtain ⟨a, b, ⟨u, v, e⟩, ha, -⟩ := form_pair hz.form
    exact ⟨a, by rw [e]; simp, ha⟩
  | cut hz =>
    obtain ⟨a, b, ⟨u, v, e⟩, ha, hb⟩ := form_pair hz.whole.form
    refine ⟨a, ?_, ha⟩
    have : a ∈ x ++ s%"a" := by rw [e]; simp
    rcases List.mem_append.1 this with h | h
    · exact h
    · simp at h; subst h; exact absurd ha (by decide)

theorem unit_count {s : Settings} {z : Slot} (h : UnitOf s z.rafsi z.kind) :
    (¬ VowelRafsi z.rafsi → z.count s = 2) ∧ (s.consonants ≠ .cluster → 1 ≤ z.count s) := by
  have hne := unit_exp h
  unfold Slot.count
  constructor
  · intro hv
    cases hk : z.kind with
    | vv =>
      rw [hk] at h
      generalize hx : z.rafsi = x at h hv
      generalize hkk : Kind.vv = k at h
      cases h with
      | rafsi hr _ => exact absurd ((kind_vowelRafsi hr).2 hkk.symm) hv
      | whole => cases hkk
      | cut => cases hkk
    | exp => exact absurd hk hne
    | _ => rfl
  · intro hc
    cases hk : z.kind with
    | vv => simp [hc]
    | exp => exact absurd hk hne
    | _ => simp

theorem counts_two {s : Settings} {zs : List Slot} {z : Slot} (hz : z ∈ zs) (h2 : z.count s = 2) : 2 ≤ (zs.map (Slot.count s)).sum := by
  induction zs with
  | nil => cases hz
  | cons y zs ih =>
    rw [List.map_cons, List.sum_cons]
    rcases List.mem_cons.1 hz with rfl | hz
    · omega
    · have := ih hz; omega

theorem counts_length {s : Settings} {zs : List Slot} (h : ∀ z ∈ zs, 1 ≤ z.count s) : zs.length ≤ (zs.map (Slot.count s)).sum := by
  induction zs with
  | nil => simp
  | cons y zs ih =>
    rw [List.map_cons, List.sum_cons, List.length_cons]
    have := ih fun z hz => h z (List.mem_cons_of_mem _ hz)
    have := h y (by simp)
    omega

theorem represents_written {s : Settings} {n : Nat} : ∀ {zs : List Slot} {vs : List Str} {i : Nat},
    All2 (fun v z => Usable .linked s v (Slot.rafsi z) z.kind ∧ Spelled v ∧ v.length < 10 ^ 90) vs zs →
    (∀ u z t, zs = u ++ z :: t → z.Written false t.isEmpty) → 1 ≤ i → i + zs.length = n → Represents .linked s n i vs zs
  | [], _, _, .nil, _, _, _ => .nil
  | z :: zs, _, i, .cons h1 h2, hw, hi, hn => by
    simp only [List.length_cons] at hn
    refine .cons h1.1 ?_ (represents_written h2 (fun u y t e => hw (z :: u) y t (by rw [e]; rfl)) (by omega) (by omega))
    have h0 : (i == 0) = false := by simp; omega
    have hl : (i + 1 == n) = zs.isEmpty := by
      cases zs with
      | nil => simp at hn ⊢; exact hn
      | cons => simp at hn ⊢; omega
    rw [h0, hl]
    exact hw [] z zs rfl

theorem all2_spelled {s : Settings} {vs : List Str} {zs : List Slot}
    (h : All2 (fun v z => Usable .linked s v (Slot.rafsi z) z.kind ∧ Spelled v ∧ v.length < 10 ^ 90) vs zs) : ∀ v ∈ vs, Spelled v ∧ v.length < 10 ^ 90 := by
  induction h with
  | nil => simp
  | cons h1 _ ih =>
    intro v hv
    rcases List.mem_cons.1 hv with rfl | hv
    · exact h1.2
    · exact ih v hv

theorem two_cons {α : Type} : ∀ {l : List α}, 2 ≤ l.length → ∃ p q v, l = p :: q :: v
  | p :: q :: v, _ => ⟨p, q, v, rfl⟩

theorem tie_noY {w : Str} (h : TieShape w) : 'y' ∉ w := by
  intro hy
  have : '?' ∈ pattern w := List.mem_map.2 ⟨'y', hy, by decide⟩
  unfold TieShape at h
  simp only [List.mem_cons, List.not_mem_nil, or_false] at h
  rcases h with h | h | h | h <;> rw [h] at this <;> revert this <;> decide

theorem part_core {s : Settings} {cm f last nl : Bool} {cl : Prop} {p : YPart} (h : PartOk s cm f last nl cl p) : p.pieces.flatten = p.core := by
  have hk := h.kind
  cases hkk : p.kind with
  | cvc => rw [hkk] at hk; rw [hk.2]; simp
  | rafsi => rw [hkk] at hk; exact hk.core
  | zihevla => rw [hkk] at hk; rw [hk.pieces]; simp
  | exp => rw [hkk] at hk; rw [hk.pieces]; simp

theorem joinPieces_at : ∀ {u : List YPart} {p : YPart} {t : List YPart}, u ≠ [] →
    ∃ a b, joinPieces (u ++ p :: t) = a ++ (b ++ s%"y" ++ if p.lead then s%"'" else []) :: joinPieces (p :: t) ∧ b ∈ [[], s%"'"]
  | [], _, _, h => absurd rfl h
  | [q], p, t, _ => ⟨q.pieces, if q.trail then s%"'" else [], by simp [joinPieces], by cases q.trail <;> simp⟩
  | q :: r :: u, p, t, _ => by
    obtain ⟨a, b, h, hb⟩ := joinPieces_at (u := r :: u) (p := p) (t := t) (by simp)
    refine ⟨q.pieces ++ [(if q.trail then s%"'" else []) ++ s%"y" ++ (if r.lead then s%"'" else [])] ++ a, b, ?_, hb⟩
    rw [show q :: r :: u ++ p :: t = q :: r :: (u ++ p :: t) from rfl, joinPieces, show r :: (u ++ p :: t) = r :: u ++ p :: t from rfl, h]
    simp

theorem joinPieces_head {p : YPart} {t : List YPart} : ∃ r, joinPieces (p :: t) = p.pieces ++ r := by
  cases t with
  | nil => exact ⟨[], by simp [joinPieces]⟩
  | cons q t => exact ⟨_, by rw [joinPieces, List.append_assoc]⟩

theorem joinPieces_mem {v : List YPart} {p : YPart} {x : Str} (hp : p ∈ v) (hx : x ∈ p.pieces) : x ∈ joinPieces v := by
  obtain ⟨u, t, rfl⟩ := List.append_of_mem hp
  obtain ⟨r, hr⟩ := joinPieces_head (p := p) (t := t)
  by_cases hu : u = []
  · subst hu
    rw [List.nil_append, hr]
    exact List.mem_append_left _ hx
  · obtain ⟨a, b, h, -⟩ := joinPieces_at (p := p) (t := t) hu
    rw [h, hr]
    simp [hx]

theorem gap_hyphen (a b : Bool) : Hyphen ((if a then s%"'" else []) ++ s%"y" ++ (if b then s%"'" else [])) := by
  cases a <;> cases b <;> decide

theorem joinPieces_filter : ∀ {v : List YPart},
    (joinPieces v).filter (fun x => ¬ Hyphen x) = (v.map YPart.pieces).flatten.filter (fun x => ¬ Hyphen x)
  | [] => rfl
  | [p] => by simp [joinPieces]
  | p :: q :: v => by
    have ih := joinPieces_filter (v := q :: v)
    rw [joinPieces, List.filter_append, List.filter_append, ih, List.filter_cons_of_neg (by simpa using gap_hyphen p.trail q.lead), List.map_cons,
      List.flatten_cons, List.filter_append]
    simp

end Jvotci
