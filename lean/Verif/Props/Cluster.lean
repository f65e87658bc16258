import Verif.Lemmas.Cluster
import Verif.Props.Lujvo

/-!
# C36: consonant clusters
-/

namespace Jvotci

namespace Spec

/-- Two consonants next to each other, or with one y between them. -/
def HasCluster (w : Str) : Prop := ∃ a b, Consonant a ∧ Consonant b ∧ (Occurs [a, b] w ∨ Occurs [a, 'y', b] w)

/-- Two consonants next to each other, or a consonant before a y. -/
def HasBreak (w : Str) : Prop := ∃ a b, Consonant a ∧ (Consonant b ∨ b = 'y') ∧ Occurs [a, b] w

end Spec

open Spec

theorem pair_cluster {w : Str} (h : Pair w) : HasCluster w := by
  obtain ⟨a, b, ha, hb, u, v, rfl⟩ := h
  exact ⟨a, b, ha, hb, .inl ⟨u, v, by simp⟩⟩

theorem pair_break {w : Str} (h : Pair w) : HasBreak w := by
  obtain ⟨a, b, ha, hb, u, v, rfl⟩ := h
  exact ⟨a, b, ha, .inl hb, u, v, by simp⟩

theorem cluster_break {w : Str} (h : HasCluster w) : HasBreak w := by
  obtain ⟨a, b, ha, hb, ⟨u, v, rfl⟩ | ⟨u, v, rfl⟩⟩ := h
  · exact ⟨a, b, ha, .inl hb, u, v, rfl⟩
  · exact ⟨a, 'y', ha, .inr rfl, u, b :: v, by simp⟩

theorem gismu_pair {mz : Bool} {w : Str} (h : Gismu mz w) : Pair w := by
  cases h with
  | @cvccv a b c d e _ _ h _ => exact ⟨c, d, h.1, h.2.1, [a, b], [e], rfl⟩
  | @ccvcv a b c d e h _ _ _ => exact ⟨a, b, (initial_consonants h).1, (initial_consonants h).2, [], [c, d, e], rfl⟩

theorem link_after {y : YHyphens} {mz : Bool} {p q : Str} (h : Link y mz p q) (hp : Hyphen p) : Rafsi mz q := by
  cases h with
  | rafsi h => exact absurd hp (rafsi_not_hyphen h)
  | y h => exact absurd hp (rafsi_not_hyphen h)
  | apostropheY _ h => exact absurd hp (rafsi_not_hyphen h)
  | rOrN _ h => exact absurd hp (rafsi_not_hyphen h)
  | afterY _ h => exact h
  | afterR h => exact h
  | afterN h => exact h

theorem link_before {y : YHyphens} {mz : Bool} {p q : Str} (h : Link y mz p q) (hp : ¬ Hyphen p) : Rafsi mz p := by
  cases h with
  | rafsi h => exact h
  | y h => exact h
  | apostropheY _ h => exact h
  | rOrN _ h => exact h
  | afterY h =>
    exfalso; apply hp
    simp only [List.mem_cons, List.not_mem_nil, or_false] at h
    rcases h with rfl | rfl <;> decide
  | afterR => exact absurd (by decide) hp
  | afterN => exact absurd (by decide) hp

theorem pieces_cluster {s : Settings} {ps : List Str} (h : LujvoPieces s ps) (hc : s.consonants = .cluster) : HasCluster ps.flatten := by
  obtain ⟨p, hp, hcase⟩ := h.cluster hc
  obtain ⟨u, v, rfl⟩ := List.append_of_mem hp
  obtain ⟨z, hz, hzr⟩ := h.reading.last
  have hnext : v = [] ∨ ∃ q t, v = q :: t ∧ Link s.yHyphens s.allowMz p q := by
    cases v with
    | nil => exact .inl rfl
    | cons q t => exact .inr ⟨q, t, rfl, h.reading.links u p q t rfl⟩
  have hlast : v = [] → Rafsi s.allowMz p := by
    rintro rfl
    rw [List.getLast?_append] at hz
    simp at hz
    rw [hz]; exact hzr
  have hhead : ∀ {q : Str} {t : List Str}, Rafsi s.allowMz q → ∃ c r, Consonant c ∧ (q :: t).flatten = c :: r := by
    intro q t hq
    cases q with
    | nil => exact absurd rfl (rafsi_ne_nil hq)
    | cons c r => exact ⟨c, r ++ t.flatten, rafsi_head? hq rfl, rfl⟩
  rcases hcase with rfl | rfl | ⟨hnh, hnv⟩
  · rcases hnext with e | ⟨q, t, rfl, hl⟩
    · exact absurd (by decide) (rafsi_not_hyphen (hlast e))
    · have hq := link_after hl (by decide)
      obtain ⟨c, r, hcc, he⟩ := hhead (t := t) hq
      exact pair_cluster ⟨'r', c, by decide, hcc, u.flatten, r, by simp [he]⟩
  · rcases hnext with e | ⟨q, t, rfl, hl⟩
    · exact absurd (by decide) (rafsi_not_hyphen (hlast e))
    · have hq := link_after hl (by decide)
      obtain ⟨c, r, hcc, he⟩ := hhead (t := t) hq
      exact pair_cluster ⟨'n', c, by decide, hcc, u.flatten, r, by simp [he]⟩
  · have hr : Rafsi s.allowMz p := by
      rcases hnext with e | ⟨q, t, rfl, hl⟩
      · exact hlast e
      · exact link_before hl hnh
    have hin : Pair p → HasCluster (u ++ p :: v).flatten := by
      intro hp
      refine pair_cluster ?_
      have := hp.append (u := u.flatten) (w := v.flatten)
      simpa using this
    cases hr with
    | cvv _ ha hb => exact absurd ⟨_, _, _, ha, hb, .inl rfl⟩ hnv
    | cvhv _ ha hb => exact absurd ⟨_, _, _, ha, hb, .inr rfl⟩ hnv
    | @ccv a b c hi _ => exact hin ⟨a, b, (initial_consonants hi).1, (initial_consonants hi).2, [], [c], rfl⟩
    | @cvcc a b c d _ _ hpp => exact hin ⟨c, d, hpp.1, hpp.2.1, [a, b], [], rfl⟩
    | @ccvc a b c d hi _ _ => exact hin ⟨a, b, (initial_consonants hi).1, (initial_consonants hi).2, [], [c, d], rfl⟩
    | gismu hg => exact hin (gismu_pair hg)
    | @cvc a b c ha hb hcc =>
      rcases hnext with rfl | ⟨q, t, rfl, hl⟩
      · exfalso
        obtain ⟨d, hd, hdv⟩ := h.vowel
        simp at hd
        subst hd
        exact vowel_not_consonant hdv hcc
      · cases hl with
        | rafsi _ hq _ _ _ =>
          obtain ⟨d, r, hdc, he⟩ := hhead (t := t) hq
          refine pair_cluster ⟨c, d, hcc, hdc, u.flatten ++ [a, b], r, ?_⟩
          rw [List.flatten_append, List.flatten_cons, he]
          simp
        | y _ _ =>
          cases t with
          | nil =>
            exfalso
            simp at hz
            subst hz
            exact rafsi_not_hyphen hzr (by decide)
          | cons q t =>
            have hl2 := h.reading.links (u ++ [[a, b, c]]) s%"y" q t (by simp)
            have hq := link_after hl2 (by decide)
            obtain ⟨d, r, hdc, he⟩ := hhead (t := t) hq
            refine ⟨c, d, hcc, hdc, .inr ⟨u.flatten ++ [a, b], r, ?_⟩⟩
            rw [List.flatten_append, List.flatten_cons, List.flatten_cons, he]
            simp
        | apostropheY _ _ _ =>
          exfalso
          cases t with
          | nil =>
            simp at hz
            subst hz
            exact rafsi_not_hyphen hzr (by decide)
          | cons q t => exact hnv (h.apostropheY u [a, b, c] q t rfl).2.2.1
        | rOrN _ _ hv _ => exact absurd hv hnv
        | afterY h => revert h; simp
        
/-- The part of C36 common to both theorems: the loop over the parts brings about `P`. -/
theorem brivla_cluster {b : Build} {s : Settings} {w : Str} {t : BType} {ps : List Str} {P : Str → Prop}
    (h : analyseBrivla b s w = .ok (t, ps)) (ht : t ≠ .cmevla) (hc : s.consonants = .cluster)
    (hm : ∀ {t u}, P t → P (t ++ u)) (hp : ∀ {t}, HasCluster t → P t)
    (hs : ∀ {R : Rec} {ctx : ACtx} {t part : Str} {i : Nat} {st st' : AState}, ctx.s = s → EndsC t → 'y' ∉ part →
      analysePart R ctx (i + 1) part st = .ok st' → P (t ++ 'y' :: part)) : P (reading w) := by
  obtain ⟨n, hn, ha⟩ := analyseR_ok h
  have hrd := (normalise_ok hn).2
  subst hrd
  generalize hr : reading w = r at *
  cases ha with
  | gismu _ _ hg => exact hp (pair_cluster (gismu_pair (isGismu_iff.1 hg)))
  | @kaha l _ hl _ _ hcv hk =>
    cases hcl : isConsonant l with
    | true => rw [hcl] at ht; exact absurd rfl ht
    | false =>
      rw [hcl] at h
      obtain ⟨h1, h2⟩ := C41_only_lujvo h
      rw [← hr, ← h1]
      exact hp (pieces_cluster h2 hc)
  | @zihevla l e sh _ _ _ _ _ _ hz =>
    obtain ⟨-, -, hzz, hrf⟩ := checkZihevlaOrRafsi_shape hz
    cases sh with
    | rafsi => have := (hrf rfl).1; cases this
    | zihevla =>
      obtain ⟨u, ch, t, hfc⟩ := hzz rfl
      exact hp (pair_cluster (firstCluster_pair hfc))
  | @parts c0 l e st _ hl _ _ _ hcv _ _ _ hloop hok _ =>
    cases hcl : isConsonant l with
    | true => rw [hcl] at ht; exact absurd rfl ht
    | false =>
      have hcluster : st.hasCluster = true := by
        unfold consonantsOk at hok
        rw [hcl, hc] at hok
        cases hh : st.hasCluster with
        | true => rfl
        | false => rw [hh] at hok; cases hok
      rcases analyseLoop_parts (P := P) hm (fun h => hp (pair_cluster h)) (fun he hy h => hs rfl he hy h) hloop hcluster with h | ⟨c, h1, h2⟩
      · exact h
      · exfalso
        rw [hl] at h1
        cases h1
        rw [(isConsonant_iff l).2 h2] at hcl
        cases hcl

theorem occurs_append {x t u : Str} (h : Occurs x t) : Occurs x (t ++ u) := by
  obtain ⟨a, b, rfl⟩ := h
  exact ⟨a, b ++ u, by simp⟩

/-- **C36** (partial). With `consonants=CLUSTER` and without experimental rafsi, a word accepted as a brivla contains two
consonants that are adjacent or separated by a single y. Missing: experimental rafsi, where it is false. -/
theorem C36_cluster_partial {b : Build} {s : Settings} {w : Str} {t : BType} {ps : List Str} (h : analyseBrivla b s w = .ok (t, ps))
    (ht : t ≠ .cmevla) (hc : s.consonants = .cluster) (he : s.expRafsi = false) : HasCluster (reading w) := by
  refine brivla_cluster h ht hc ?_ id ?_
  · rintro t u ⟨a, b, ha, hb, h | h⟩
    · exact ⟨a, b, ha, hb, .inl (occurs_append h)⟩
    · exact ⟨a, b, ha, hb, .inr (occurs_append h)⟩
  · rintro R ctx t part i st st' rfl ⟨c, hct, hcc⟩ hy h
    obtain ⟨t0, rfl⟩ := List.getLast?_eq_some_iff.1 hct
    rcases analysePart_noCluster h hy he with ⟨d, r, rfl, hd⟩ | hpair
    · exact ⟨c, d, hcc, hd, .inr ⟨t0, r, by simp⟩⟩
    · exact pair_cluster (by simpa using Pair.left (u := t0 ++ [c, 'y']) hpair)

/-- **C36** (partial), with any options: two consonants are adjacent, or a consonant stands before a y. -/
theorem C36_break_partial {b : Build} {s : Settings} {w : Str} {t : BType} {ps : List Str} (h : analyseBrivla b s w = .ok (t, ps))
    (ht : t ≠ .cmevla) (hc : s.consonants = .cluster) : HasBreak (reading w) := by
  refine brivla_cluster h ht hc ?_ cluster_break ?_
  · rintro t u ⟨a, b, ha, hb, h⟩
    exact ⟨a, b, ha, hb, occurs_append h⟩
  · rintro R ctx t part i st st' rfl ⟨c, hct, hcc⟩ hy h
    obtain ⟨t0, rfl⟩ := List.getLast?_eq_some_iff.1 hct
    exact ⟨c, 'y', hcc, .inr rfl, t0, part, by simp⟩

example : analyseBrivla .linked {} s%"lotytai" = .ok (.lujvo, [s%"lot", s%"y", s%"tai"]) ∧ HasCluster s%"lotytai" :=
  ⟨by decide +kernel, 't', 't', by decide, by decide, .inr ⟨s%"lo", s%"ai", rfl⟩⟩
example : analyseBrivla .linked {} s%"tasytai" = .ok (.extendedLujvo, [s%"tas", s%"y", s%"tai"]) := by decide +kernel
example : analyseBrivla .linked {} s%"iglu" = .ok (.zihevla, [s%"iglu"]) := by decide +kernel

/-- A check for clusters. -/
def clusterB : Str → Bool
  | a :: b :: t => (isConsonant a && (isConsonant b || (b == 'y' && t.head?.any isConsonant))) || clusterB (b :: t)
  | _ => false

theorem clusterB_iff {w : Str} (h : HasCluster w) : clusterB w = true := by
  obtain ⟨a, b, ha, hb, h⟩ := h
  have ha := (isConsonant_iff a).2 ha
  have hb := (isConsonant_iff b).2 hb
  have key : ∀ (u : Str) (x : Char) (t : Str), clusterB (a :: x :: t) = true → clusterB (u ++ a :: x :: t) = true := by
    intro u x t h
    induction u with
    | nil => exact h
    | cons c u ih =>
      cases u with
      | nil => simp only [List.cons_append, List.nil_append] at ih ⊢; rw [clusterB, ih]; simp
      | cons d u => simp only [List.cons_append] at ih ⊢; rw [clusterB, ih]; simp
  rcases h with ⟨u, v, rfl⟩ | ⟨u, v, rfl⟩
  · rw [List.append_assoc]
    exact key u b v (by simp [clusterB, ha, hb])
  · rw [List.append_assoc]
    exact key u 'y' (b :: v) (by simp [clusterB, ha, hb])

/-- **C36** is false with experimental rafsi, all other options at their defaults: nothing in this word is a cluster. -/
theorem C36_false : ∃ w ps, analyseBrivla .linked { expRafsi := true } w = .ok (.extendedLujvo, ps) ∧ ¬ HasCluster (reading w) :=
  ⟨s%"baibaibai'ybailaty'ai", [s%"bai", s%"bai", s%"bai", s%"'y", s%"bai", s%"lat", s%"y'", s%"ai"],
    by decide +kernel, fun h => absurd (clusterB_iff h) (by decide +kernel)⟩

end Jvotci
