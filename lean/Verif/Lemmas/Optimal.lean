import Verif.Lemmas.Layout

/-!
# Helper lemmas: the search of `get_lujvo_from_list` loses nothing

Two candidates with the same tosmabru state, consonant count and last letter can be continued in the same way and
at the same price (`exchange`), so keeping the cheaper one is enough.
-/

namespace Jvotci

open Spec

theorem Settled.chooses {o : CombineOpts} {w : Str} {last first : Char} {t : Tarmi} (h : Settled w) (hl : last ≠ '\'') :
    chooseHyphen o w last first t = some [] := by
  unfold chooseHyphen
  rw [if_neg hl]
  have hh : ∀ c, w.head? = some c → Vowel c →
      rafsiTarmi (slice w 0 3) = .other ∧ tarmiIgnoringHyphen w ≠ .cvv ∧ tarmiIgnoringHyphen w ≠ .cvhv := by
    intro c hc hv
    have h1 : (slice w 0 3).head? = some c := by
      cases w with
      | nil => cases hc
      | cons a w => simpa [slice] using hc
    have h2 := vowel_tarmi (strip_head hc (hyphenLetter_false (.inl hv))) hv
    refine ⟨vowel_tarmi h1 hv, ?_, ?_⟩ <;> (unfold tarmiIgnoringHyphen; rw [h2]; simp)
  rcases h with h | ⟨c, h, hv⟩
  · rw [if_neg (by omega), if_neg (by omega)]
  · obtain ⟨h1, h2, h3⟩ := hh c h hv
    rw [if_neg (by rw [h1]; simp)]
    split
    · simp [h2, h3]
    · rfl

/-- The converse of `combine_some`. -/
theorem combine_intro {o : CombineOpts} {lujvo rafsi : Str} {lc rc : Nat} {sc : Int}
    {il : List (Nat × Nat)} {tos tos' : Tos} {last first : Char} {hyphen : Str} {new : Nat}
    (h1 : lujvo.getLast? = some last) (h2 : rafsi.head? = some first) (h3 : il ≠ [])
    (h4 : isConsonant last = true → isConsonant first = true → (validPairs o.allowMz).contains [last, first] = true)
    (h5 : first = '\'' → last = 'y' ∨ last = '\'')
    (h6 : BANNED_TRIPLES.contains (last :: slice rafsi 0 2) = false)
    (h7 : tarmiIgnoringHyphen rafsi = .other → last = 'y' ∨ last = '\'')
    (h8 : chooseHyphen o lujvo last first (tarmiIgnoringHyphen rafsi) = some hyphen)
    (h9 : nextTos tos rafsi last first (tarmiIgnoringHyphen rafsi) = some tos')
    (h10 : newConsonants o lujvo rafsi hyphen rc = .ok new) :
    combine o lujvo rafsi lc rc sc il tos = .ok (some {
      tos := tos'
      consonants := totalConsonants o lc new
      score := sc + score hyphen + score rafsi - tiebreak (lujvo ++ hyphen ++ rafsi)
      lujvo := lujvo ++ hyphen ++ rafsi
      indices := il ++ [(lujvo.length + hyphen.length + (if first = '\'' then 1 else 0),
        lujvo.length + hyphen.length + (if first = '\'' then 1 else 0) + (stripHyphens rafsi).length)] }) := by
  obtain ⟨prev, hprev⟩ : ∃ p, il.getLast? = some p := by
    cases h : il.getLast? with
    | none => exact absurd (List.getLast?_eq_none_iff.1 h) h3
    | some p => exact ⟨p, rfl⟩
  unfold combine
  rw [h1, h2, hprev]
  dsimp only
  rw [if_neg, if_neg, if_neg, if_neg, if_neg, h8]
  · dsimp only
    rw [h9]
    dsimp only
    rw [h10]
    rfl
  · have : slice lujvo prev.1 prev.1 = [] := by simp [slice]
    rw [this]
    simp
  · rintro ⟨a, b, c⟩
    rcases h7 c with h | h
    · exact a h
    · exact b h
  · rw [h6]; simp
  · rintro ⟨a, b, c⟩
    rcases h5 c with h | h
    · exact a h
    · exact b h
  · cases ha : isConsonant last with
    | false => simp
    | true =>
      cases hb : isConsonant first with
      | false => simp
      | true => simpa using h4 ha hb

/-- What the rest of the search looks at in a candidate of at least two components. -/
structure Ready (co : Consonants) (c : Cand) : Prop where
  settled : Settled c.lujvo
  apos : c.lujvo.getLast? ≠ some '\''
  last : ∃ l t, c.lujvo.reverse.dropWhile isHyphenLetter = l :: t ∧
    (co = .cluster → c.consonants ≠ 2 → isConsonant l = false)
  indices : c.indices ≠ []

/-- Two candidates with the same key can be continued in the same way. -/
theorem exchange {o : CombineOpts} {c1 c2 d1 : Cand} {r : RafsiOpt} (h1 : Ready o.consonants c1) (h2 : Ready o.consonants c2)
    (ht : c1.tos = c2.tos) (hn : c1.consonants = c2.consonants) (hl : c1.lujvo.getLast? = c2.lujvo.getLast?)
    (hr : 2 ≤ r.1.length)
    (h : combine o c1.lujvo r.1 c1.consonants r.2 c1.score c1.indices c1.tos = .ok (some d1)) :
    ∃ d2, combine o c2.lujvo r.1 c2.consonants r.2 c2.score c2.indices c2.tos = .ok (some d2) ∧
      d1.tos = d2.tos ∧ d1.consonants = d2.consonants ∧ d1.lujvo.getLast? = d2.lujvo.getLast? ∧
      d1.score - c1.score = d2.score - c2.score := by
  obtain ⟨last, first, hyphen, new, e1, e2, -, e4, e5, e6, e7, e8, e9, e10, e11, e12, e13, -⟩ := combine_some h
  have hq : last ≠ '\'' := by rintro rfl; exact h1.apos e1
  have hhy := h1.settled.chooses (o := o) (first := first) (t := tarmiIgnoringHyphen r.1) hq
  rw [e8] at hhy
  cases hhy
  have e1' : c2.lujvo.getLast? = some last := by rw [← hl]; exact e1
  have e8' := h2.settled.chooses (o := o) (first := first) (t := tarmiIgnoringHyphen r.1) hq
  obtain ⟨l1, t1, hl1, hc1⟩ := h1.last
  obtain ⟨l2, t2, hl2, hc2⟩ := h2.last
  have hnew : ∃ new', newConsonants o c2.lujvo r.1 [] r.2 = .ok new' ∧
      totalConsonants o c1.consonants new = totalConsonants o c2.consonants new' := by
    rw [← hn]
    unfold newConsonants at e10 ⊢
    rw [if_neg (by simp)] at e10 ⊢
    by_cases hco : o.consonants = .cluster
    · rw [if_pos hco] at e10 ⊢
      by_cases hr2 : r.2 ≠ 2
      · rw [if_pos hr2] at e10 ⊢
        rw [hl1] at e10
        rw [hl2]
        cases hd : r.1.dropWhile (· == '\'') with
        | nil => rw [hd] at e10; cases e10
        | cons f fs =>
          rw [hd] at e10
          dsimp only at e10 ⊢
          by_cases h2 : c1.consonants = 2
          · have key : ∀ k, totalConsonants o c1.consonants k = 2 := by
              intro k
              unfold totalConsonants
              have : min 2 (c1.consonants + k) = 2 := by omega
              rw [this]; simp
            split
            · exact ⟨2, rfl, by rw [key, key]⟩
            · exact ⟨0, rfl, by rw [key, key]⟩
          · rw [hc1 hco h2] at e10
            rw [hc2 hco (by rw [← hn]; exact h2)]
            simp at e10 ⊢
            rw [e10]
      · rw [if_neg hr2] at e10 ⊢
        cases e10
        exact ⟨_, rfl, rfl⟩
    · rw [if_neg hco] at e10 ⊢
      cases e10
      exact ⟨_, rfl, rfl⟩
  obtain ⟨new', hnew, htot⟩ := hnew
  have := combine_intro (sc := c2.score) (lc := c2.consonants) e1' e2 h2.indices e4 e5 e6 e7 e8' (ht ▸ e9) hnew
  refine ⟨_, this, rfl, by rw [e11]; exact htot, ?_, ?_⟩
  · have hne : r.1 ≠ [] := by rintro e; rw [e] at hr; simp at hr
    rw [e13]
    dsimp only
    rw [getLast?_append_ne _ hne, getLast?_append_ne _ hne]
  · rw [e12]
    dsimp only
    rw [List.append_nil, List.append_nil, h1.settled.tie hr, h2.settled.tie hr]
    omega

/-! ## The table keeps the cheapest candidate of each key -/

/-- The table has an item with this key that costs at most `v`. -/
def Covers (k : Tos × Nat × Char) (v : Int) (b : Best) : Prop := ∃ e ∈ b, e.1 = k ∧ e.2.2.1 ≤ v

theorem bestInsert_covers (k : Tos × Nat × Char) (x : Str × Int × List (Nat × Nat)) (b : Best) :
    Covers k x.2.1 (bestInsert k x b) := by
  induction b with
  | nil => exact ⟨(k, x), by simp [bestInsert], rfl, Int.le_refl _⟩
  | cons a b ih =>
    unfold bestInsert
    split
    · rename_i hk
      split
      · exact ⟨_, List.mem_cons_self .., rfl, Int.le_refl _⟩
      · exact ⟨a, List.mem_cons_self .., hk, by omega⟩
    · obtain ⟨e, he, h⟩ := ih
      exact ⟨e, List.mem_cons_of_mem _ he, h⟩

theorem bestInsert_keeps {k k' : Tos × Nat × Char} {x : Str × Int × List (Nat × Nat)} {v : Int} {b : Best}
    (h : Covers k' v b) : Covers k' v (bestInsert k x b) := by
  obtain ⟨e, he, hk, hv⟩ := h
  induction b with
  | nil => cases he
  | cons a b ih =>
    unfold bestInsert
    split
    · rename_i hka
      split
      · rcases List.mem_cons.1 he with rfl | he
        · exact ⟨_, List.mem_cons_self .., by rw [← hka]; exact hk, by dsimp only; omega⟩
        · exact ⟨e, List.mem_cons_of_mem _ he, hk, hv⟩
      · exact ⟨e, he, hk, hv⟩
    · rcases List.mem_cons.1 he with rfl | he
      · exact ⟨_, List.mem_cons_self .., hk, hv⟩
      · obtain ⟨e', he', h⟩ := ih he
        exact ⟨e', List.mem_cons_of_mem _ he', h⟩

theorem updateCurrentBest_keeps {c : Option Cand} {k : Tos × Nat × Char} {v : Int} {b b' : Best}
    (h : updateCurrentBest c b = .ok b') (hc : Covers k v b) : Covers k v b' := by
  unfold updateCurrentBest at h
  cases c with
  | none => cases h; exact hc
  | some d =>
    obtain ⟨l, hl, h⟩ := bind_ok h
    cases h
    exact bestInsert_keeps hc

theorem updateCurrentBest_covers {c : Cand} {l : Char} {b b' : Best} (hl : c.lujvo.getLast? = some l)
    (h : updateCurrentBest (some c) b = .ok b') : Covers (c.tos, c.consonants, l) c.score b' := by
  unfold updateCurrentBest at h
  obtain ⟨l', hl', h⟩ := bind_ok h
  cases h
  have := idxLast_ok hl'
  rw [hl] at this
  cases this
  exact bestInsert_covers _ _ _

/-- A property that every step keeps and one step establishes holds at the end. -/
theorem foldlM_reach {α β : Type} {P : β → Prop} {f : β → α → Except Err β} {l : List α} {a : α} (ha : a ∈ l)
    (hkeep : ∀ a ∈ l, ∀ b b', P b → f b a = .ok b' → P b') (hreach : ∀ b b', f b a = .ok b' → P b') :
    ∀ {b b'}, l.foldlM f b = .ok b' → P b' := by
  induction l with
  | nil => cases ha
  | cons x l ih =>
    intro b b' h
    rw [List.foldlM_cons] at h
    obtain ⟨b1, h1, h2⟩ := bind_ok h
    rcases List.mem_cons.1 ha with rfl | ha
    · exact foldlM_inv (fun x hx => hkeep x (List.mem_cons_of_mem _ hx)) (hreach _ _ h1) h2
    · exact ih ha (fun x hx => hkeep x (List.mem_cons_of_mem _ hx)) h2

theorem firstStage_covers {o : CombineOpts} {l0 l1 : List RafsiOpt} {b : Best} {r0 r1 : RafsiOpt} {c : Cand} {l : Char}
    (h : firstStage o l0 l1 = .ok b) (h0 : r0 ∈ l0) (h1 : r1 ∈ l1)
    (hc : combine o r0.1 r1.1 r0.2 r1.2 (score r0.1) [(0, (stripHyphens r0.1).length)]
        (initialTos o.generateCmevla r0.1) = .ok (some c)) (hl : c.lujvo.getLast? = some l) :
    Covers (c.tos, c.consonants, l) c.score b := by
  unfold firstStage at h
  have inner : ∀ (r0 : RafsiOpt) b b', Covers (c.tos, c.consonants, l) c.score b →
      l1.foldlM (fun best r1 => do
        let c ← combine o r0.1 r1.1 r0.2 r1.2 (score r0.1) [(0, (stripHyphens r0.1).length)]
          (initialTos o.generateCmevla r0.1)
        updateCurrentBest c best) b = .ok b' → Covers (c.tos, c.consonants, l) c.score b' := by
    intro r0 b b' hb h
    refine foldlM_inv (P := Covers (c.tos, c.consonants, l) c.score) ?_ hb h
    intro r1 _ b b' hb h
    obtain ⟨d, -, h⟩ := bind_ok h
    exact updateCurrentBest_keeps h hb
  refine foldlM_reach (P := Covers (c.tos, c.consonants, l) c.score) h0 (fun r0 _ b b' => inner r0 b b') ?_ h
  intro b b' h
  refine foldlM_reach (P := Covers (c.tos, c.consonants, l) c.score) h1 ?_ ?_ h
  · intro r1 _ b b' hb h
    obtain ⟨d, -, h⟩ := bind_ok h
    exact updateCurrentBest_keeps h hb
  · intro b b' h
    rw [hc] at h
    exact updateCurrentBest_covers hl h

theorem nextStage_covers {o : CombineOpts} {prev b : Best} {ls : List RafsiOpt} {r : RafsiOpt} {tos : Tos} {n : Nat}
    {e : Char × (Str × Int × List (Nat × Nat))} {c : Cand} {l : Char} (hn : n ≤ 2)
    (h : nextStage o prev ls = .ok b) (hr : r ∈ ls) (he : ((tos, n, e.1), e.2) ∈ prev)
    (hc : combine o e.2.1 r.1 n r.2 e.2.2.1 e.2.2.2 tos = .ok (some c)) (hl : c.lujvo.getLast? = some l) :
    Covers (c.tos, c.consonants, l) c.score b := by
  unfold nextStage at h
  have k4 : ∀ (r : RafsiOpt) tos n (es : List (Char × (Str × Int × List (Nat × Nat)))) b b',
      Covers (c.tos, c.consonants, l) c.score b →
      es.foldlM (fun best e => do
          let c ← combine o e.2.1 r.1 n r.2 e.2.2.1 e.2.2.2 tos
          updateCurrentBest c best) b = .ok b' → Covers (c.tos, c.consonants, l) c.score b' := by
    intro r tos n es b b' hb h
    refine foldlM_inv (P := Covers (c.tos, c.consonants, l) c.score) ?_ hb h
    intro e _ b b' hb h
    obtain ⟨d, -, h⟩ := bind_ok h
    exact updateCurrentBest_keeps h hb
  have k3 : ∀ (r : RafsiOpt) tos (ns : List Nat) b b', Covers (c.tos, c.consonants, l) c.score b →
      ns.foldlM (fun best n =>
        (bucket prev tos n).foldlM (fun best e => do
          let c ← combine o e.2.1 r.1 n r.2 e.2.2.1 e.2.2.2 tos
          updateCurrentBest c best) best) b = .ok b' → Covers (c.tos, c.consonants, l) c.score b' := by
    intro r tos ns b b' hb h
    exact foldlM_inv (P := Covers (c.tos, c.consonants, l) c.score) (fun n _ b b' hb h => k4 r tos n _ b b' hb h) hb h
  have k2 : ∀ (r : RafsiOpt) (ts : List Tos) b b', Covers (c.tos, c.consonants, l) c.score b →
      ts.foldlM (fun best tos =>
      [0, 1, 2].foldlM (fun best n =>
        (bucket prev tos n).foldlM (fun best e => do
          let c ← combine o e.2.1 r.1 n r.2 e.2.2.1 e.2.2.2 tos
          updateCurrentBest c best) best) best) b = .ok b' → Covers (c.tos, c.consonants, l) c.score b' := by
    intro r ts b b' hb h
    exact foldlM_inv (P := Covers (c.tos, c.consonants, l) c.score) (fun t _ b b' hb h => k3 r t _ b b' hb h) hb h
  refine foldlM_reach (P := Covers (c.tos, c.consonants, l) c.score) hr (fun r _ b b' hb h => k2 r _ b b' hb h) ?_ h
  intro b b' h
  refine foldlM_reach (P := Covers (c.tos, c.consonants, l) c.score) (a := tos) ?_ (fun t _ b b' hb h => k3 r t _ b b' hb h) ?_ h
  · cases tos <;> simp
  intro b b' h
  refine foldlM_reach (P := Covers (c.tos, c.consonants, l) c.score) (a := n) ?_ (fun n _ b b' hb h => k4 r tos n _ b b' hb h) ?_ h
  · simp; omega
  intro b b' h
  refine foldlM_reach (P := Covers (c.tos, c.consonants, l) c.score) (a := e) (mem_bucket.2 he) ?_ ?_ h
  · intro e _ b b' hb h
    obtain ⟨d, -, h⟩ := bind_ok h
    exact updateCurrentBest_keeps h hb
  · intro b b' h
    rw [hc] at h
    exact updateCurrentBest_covers hl h

theorem dropWhile_tail {p : Char → Bool} {A x suf : Str} {l : Char} (hs : suf.all p = true) (hx : x.getLast? = some l)
    (hl : p l = false) : ∃ t, (A ++ x ++ suf).reverse.dropWhile p = l :: t := by
  obtain ⟨x', rfl⟩ := List.getLast?_eq_some_iff.1 hx
  refine ⟨x'.reverse ++ A.reverse, ?_⟩
  simp only [List.reverse_append, List.reverse_cons, List.reverse_nil, List.nil_append, List.append_assoc]
  rw [List.dropWhile_append_of_pos]
  · simp [hl]
  · intro a ha
    exact List.all_eq_true.1 hs a (List.mem_reverse.1 ha)

theorem combine_le {o : CombineOpts} {lujvo rafsi : Str} {lc rc : Nat} {sc : Int} {il : List (Nat × Nat)} {tos : Tos} {c : Cand}
    (h : combine o lujvo rafsi lc rc sc il tos = .ok (some c)) : c.consonants ≤ 2 ∧ (rc = 2 → c.consonants = 2) := by
  obtain ⟨last, first, hyphen, new, -, -, -, -, -, -, -, -, -, e10, e11, -⟩ := combine_some h
  have h2 : rc = 2 → new = 2 := by
    rintro rfl
    unfold newConsonants at e10
    split at e10
    · cases e10; rfl
    · split at e10
      · rw [if_neg (by simp)] at e10; cases e10; rfl
      · cases e10; rfl
  rw [e11]
  unfold totalConsonants
  constructor
  · split <;> omega
  · intro h
    have : min 2 (lc + new) = 2 := by have := h2 h; omega
    rw [this]; simp

theorem Built.le {o : CombineOpts} {M : Nat} {rs : List RafsiOpt} {c : Cand} (h : Built o M rs c) : c.consonants ≤ 2 := by
  cases h with
  | two h => exact (combine_le h).1
  | more _ h => exact (combine_le h).1

theorem FormKind.vowel {s : Settings} {f l : Bool} {x suf : Str} {n : Nat} (h : FormKind s f l x suf n) (hn : n ≠ 2) :
    ∃ c, x.getLast? = some c ∧ Vowel c := by
  cases h with
  | cvv ht _ =>
    rcases ht with ht | ht
    · obtain ⟨a, b, c, rfl, -, -, h⟩ := tarmi_cvv.1 ht
      exact ⟨c, rfl, (isVowel_iff _).1 h⟩
    · obtain ⟨a, b, c, rfl, -, -, h⟩ := tarmi_cvhv.1 ht
      exact ⟨c, rfl, (isVowel_iff _).1 h⟩
  | ccv => exact absurd rfl hn
  | cvc => exact absurd rfl hn
  | short => exact absurd rfl hn
  | long => exact absurd rfl hn
  | exp _ _ _ _ _ _ h => exact h

/-- What a candidate ends with. -/
theorem combine_ready {s : Settings} {o : CombineOpts} {lujvo x : Str} {r : RafsiOpt} {lc : Nat} {sc : Int} {f l : Bool}
    {il : List (Nat × Nat)} {tos : Tos} {c : Cand} (hf : Form s f l x r) (hset : Settled c.lujvo)
    (hq : c.lujvo.getLast? ≠ some '\'')
    (h : combine o lujvo r.1 lc r.2 sc il tos = .ok (some c)) : Ready o.consonants c := by
  obtain ⟨h1, h2⟩ := combine_le h
  obtain ⟨last, first, hyphen, new, -, -, -, -, -, -, -, -, -, -, -, -, e13, e14⟩ := combine_some h
  obtain ⟨hx, suf, hk, e⟩ := hf
  obtain ⟨d, hd, hdl⟩ := hx.last
  refine ⟨hset, hq, ?_, by rw [e14]; simp⟩
  obtain ⟨t, ht⟩ := dropWhile_tail (A := lujvo ++ hyphen ++ prefixOf f x) (isHyphen_all hk.suf.1) hd (hyphenLetter_false hdl)
  refine ⟨d, t, ?_, ?_⟩
  · rw [e13, e, ← ht]; simp
  · intro _ hn
    obtain ⟨v, hv, hvv⟩ := hk.vowel (fun h => hn (h2 h))
    rw [hd] at hv
    cases hv
    exact not_consonant_of_vowel ((isVowel_iff _).2 hvv)

theorem Laid.apos {mz : Bool} {xs : List Str} {c : Cand} (h : Laid mz xs c) : c.lujvo.getLast? ≠ some '\'' := by
  obtain ⟨⟨body, suf, e, hl, hs⟩, -⟩ := h
  obtain ⟨d, hd, hdl⟩ := hl.last
  rw [e]
  rcases hs with rfl | rfl | rfl
  · rw [List.append_nil, hd]
    rintro ⟨⟩
    rcases hdl with h | h <;> exact absurd h (by decide)
  · simp
  · simp

theorem Built.ready {s : Settings} {o : CombineOpts} {M N : Nat} {rs : List RafsiOpt} {c : Cand} (h : Built o M rs c)
    {vs xs : List Str} (hc : Chosen s N 0 vs xs rs) (hN : rs.length ≤ N) : Ready o.consonants c := by
  have hl := h.laid hc hN
  cases h with
  | two h =>
    cases hc with
    | cons hf _ hc =>
      cases hc with
      | cons hf1 _ hc => exact combine_ready (o := { o with tanruLen := M }) hf1 hl.settled hl.apos h
  | more hb h =>
    obtain ⟨vs', v, xs', x, rfl, rfl, hc, hf, -⟩ := chosen_concat hc
    exact combine_ready (o := { o with tanruLen := 0 }) hf hl.settled hl.apos h

/-- Every candidate is matched by a table item of its key that costs no more. -/
def Complete (o : CombineOpts) (N : Nat) (ls : List (List RafsiOpt)) (b : Best) : Prop :=
  ∀ rs c l, Picks ls rs → Built o N rs c → c.lujvo.getLast? = some l → Covers (c.tos, c.consonants, l) c.score b

theorem built_concat {o : CombineOpts} {M : Nat} {rs : List RafsiOpt} {r : RafsiOpt} {c : Cand} (h : Built o M (rs ++ [r]) c)
    (h2 : 2 ≤ rs.length) : ∃ c0, Built o M rs c0 ∧
      combine { o with tanruLen := 0 } c0.lujvo r.1 c0.consonants r.2 c0.score c0.indices c0.tos = .ok (some c) := by
  generalize e : rs ++ [r] = rs' at h
  cases h with
  | two h =>
    have := congrArg List.length e
    simp at this
    omega
  | more hb h =>
    obtain ⟨e1, e2⟩ := List.append_inj' e rfl
    cases e2
    subst e1
    exact ⟨_, hb, h⟩

theorem nextStage_complete {o : CombineOpts} {N : Nat} {ls : List (List RafsiOpt)} {l : List RafsiOpt} {b b' : Best}
    (hs : Sound o N ls b) (hc : Complete o N ls b) (h2 : 2 ≤ ls.length)
    (hready : ∀ rs c, Picks ls rs → Built o N rs c → Ready o.consonants c) (hlen : ∀ r ∈ l, 2 ≤ r.1.length)
    (h : nextStage { o with tanruLen := 0 } b l = .ok b') : Complete o N (ls ++ [l]) b' := by
  intro rs c lc hp hb hl
  obtain ⟨rs, r, rfl, hp, hr⟩ := picks_concat_inv hp
  obtain ⟨c0, hb0, hcomb⟩ := built_concat hb (by rw [← picks_length hp]; exact h2)
  obtain ⟨l0, hl0⟩ : ∃ l0, c0.lujvo.getLast? = some l0 := by
    obtain ⟨last, _, _, _, e, -⟩ := combine_some hcomb
    exact ⟨last, e⟩
  obtain ⟨e, he, hk, hv⟩ := hc rs c0 l0 hp hb0 hl0
  obtain ⟨rs', c', hp', hb', l', hl', hee⟩ := hs e he
  subst hee
  simp only [Prod.mk.injEq] at hk
  obtain ⟨hk1, hk2, rfl⟩ := hk
  obtain ⟨d, hd, ht, hn, hld, hsc⟩ := exchange (o := { o with tanruLen := 0 }) (c2 := c') (hready rs c0 hp hb0) (hready rs' c' hp' hb') hk1.symm hk2.symm
    (by rw [hl0, hl']) (hlen r hr) hcomb
  have := nextStage_covers (e := (l', (c'.lujvo, c'.score, c'.indices))) hb'.le h hr he hd (by rw [← hld]; exact hl)
  rw [ht, hn]
  obtain ⟨e, he, hke, hve⟩ := this
  exact ⟨e, he, hke, by dsimp only at hv; omega⟩

theorem firstStage_complete {o : CombineOpts} {N : Nat} {l0 l1 : List RafsiOpt} {b : Best}
    (h : firstStage { o with tanruLen := N } l0 l1 = .ok b) : Complete o N [l0, l1] b := by
  intro rs c l hp hb hl
  cases hp with
  | cons h0 hp =>
    cases hp with
    | cons h1 hp =>
      cases hp
      generalize e : [_, _] = rs at hb
      cases hb with
      | two hc =>
        cases e
        exact firstStage_covers h h0 h1 hc hl
      | more hb hc =>
        have := congrArg List.length e
        have := hb.count
        simp at *
        omega

theorem searchStages_complete {o : CombineOpts} {ll : List (List RafsiOpt)} {b : Best}
    (h : searchStages o ll = .ok b)
    (hready : ∀ ls rest, ll = ls ++ rest → ∀ rs c, Picks ls rs → Built o ll.length rs c → Ready o.consonants c)
    (hlen : ∀ ls l rest, ll = ls ++ l :: rest → ls ≠ [] → ∀ r ∈ l, 2 ≤ r.1.length) :
    Complete o ll.length ll b := by
  unfold searchStages at h
  split at h
  · cases h
  · intro rs c l hp hb
    have := hb.count
    have := picks_length hp
    simp at this
    omega
  · rename_i l0 l1 rest
    obtain ⟨b0, h0, h'⟩ := bind_ok h
    have hs0 := firstStage_sound h0
    have hc0 := firstStage_complete h0
    generalize (l0 :: l1 :: rest).length = N at *
    have key : ∀ (rest ls : List (List RafsiOpt)) (b0 : Best), Sound o N ls b0 → Complete o N ls b0 → 2 ≤ ls.length →
        (∀ ls' rest', ls ++ rest = ls' ++ rest' → ∀ rs c, Picks ls' rs → Built o N rs c → Ready o.consonants c) →
        (∀ ls' l rest', ls ++ rest = ls' ++ l :: rest' → ls' ≠ [] → ∀ r ∈ l, 2 ≤ r.1.length) →
        rest.foldlM (fun b l => nextStage { o with tanruLen := 0 } b l) b0 = .ok b → Complete o N (ls ++ rest) b := by
      intro rest
      induction rest with
      | nil => intro ls b0 _ h0 _ _ _ h; cases h; simpa using h0
      | cons l rest ih =>
        intro ls b0 hs hc h2 hr hl h
        rw [List.foldlM_cons] at h
        obtain ⟨b1, h1, h⟩ := bind_ok h
        have hc1 := nextStage_complete hs hc h2 (hr ls (l :: rest) rfl)
          (hl ls l rest rfl (by rintro rfl; simp at h2)) h1
        have := ih (ls ++ [l]) b1 (nextStage_sound hs h1) hc1 (by simp; omega) (by simpa using hr) (by simpa using hl) h
        simpa using this
    exact key rest [l0, l1] b0 hs0 hc0 (by simp) hready hlen h'

theorem rafsiListListFrom_split {R : Rec} {s : Settings} {N : Nat} : ∀ {ls : List (List RafsiOpt)} {vs : List Str} {i : Nat}
    {rest : List (List RafsiOpt)}, rafsiListListFrom R s N i vs = .ok (ls ++ rest) →
    ∃ us ws, vs = us ++ ws ∧ rafsiListListFrom R s N i us = .ok ls ∧ rafsiListListFrom R s N (i + ls.length) ws = .ok rest
  | [], vs, i, rest, h => ⟨[], vs, rfl, rfl, h⟩
  | l :: ls, [], i, rest, h => by cases h
  | l :: ls, v :: vs, i, rest, h => by
    unfold rafsiListListFrom at h
    obtain ⟨a, ha, h⟩ := bind_ok h
    obtain ⟨b, hb, h⟩ := bind_ok h
    cases h
    obtain ⟨us, ws, rfl, h1, h2⟩ := rafsiListListFrom_split hb
    refine ⟨v :: us, ws, rfl, ?_, ?_⟩
    · unfold rafsiListListFrom
      rw [ha, ok_bind, h1]
      rfl
    · rw [← h2]
      congr 1
      simp; omega

theorem rafsiLists_complete {b : Build} {s : Settings} {g : Bool} {vs : List Str} {ll : List (List RafsiOpt)} {best : Best}
    (hll : getRafsiListList (program b) s vs = .ok ll) (h : searchStages (combineOpts s g) ll = .ok best) :
    Complete (combineOpts s g) ll.length ll best := by
  refine searchStages_complete h ?_ ?_
  · intro ls rest e rs c hp hb
    rw [e] at hll
    obtain ⟨us, ws, rfl, h1, h2⟩ := rafsiListListFrom_split hll
    obtain ⟨hlen, xs, hc⟩ := rafsiListListFrom_chosen h1 hp
    have hlen2 := (chosen_length hc).1
    exact hb.ready hc (by simp; omega)
  · intro ls l rest e hne r hr
    rw [e] at hll
    obtain ⟨us, ws, rfl, h1, h2⟩ := rafsiListListFrom_split hll
    cases ws with
    | nil => cases h2
    | cons w ws =>
      unfold rafsiListListFrom at h2
      obtain ⟨a, ha, h2⟩ := bind_ok h2
      obtain ⟨b', hb', h2⟩ := bind_ok h2
      cases h2
      have h0 : (0 + ls.length == 0) = false := by
        cases ls with
        | nil => exact absurd rfl hne
        | cons => simp
      rw [h0] at ha
      obtain ⟨x, hf, -⟩ := rafsiListFor_form ha hr
      exact hf.length

/-! ## The choice at the end -/

/-- The letter a word must end in. -/
def RightEnd (g : Bool) (l : Char) : Prop := (isVowel l = true ∧ g = false) ∨ (isConsonant l = true ∧ g = true)

theorem pickBest_best {g : Bool} {b : Best} : 
    (∀ r, pickBest g b = some r → ∀ l e, ((Tos.tosynone, 2, l), e) ∈ b → RightEnd g l → r.2.1 ≤ e.2.1) ∧
    (pickBest g b = none → ∀ l e, ((Tos.tosynone, 2, l), e) ∈ b → RightEnd g l → 10 ^ 100 ≤ e.2.1) := by
  unfold pickBest
  have key : ∀ (es : List (Char × (Str × Int × List (Nat × Nat)))) (acc : Option (Str × Int × List (Nat × Nat)) × Int),
      (∀ r, acc.1 = some r → acc.2 = r.2.1) → 
      ∃ out, es.foldl (fun (acc : Option (Str × Int × List (Nat × Nat)) × Int) e =>
        if (isVowel e.1 && !g) || (isConsonant e.1 && g) then
          if e.2.2.1 < acc.2 then (some e.2, e.2.2.1) else acc
        else acc) acc = out ∧ (∀ r, out.1 = some r → out.2 = r.2.1) ∧ out.2 ≤ acc.2 ∧ (out.1 = none → out.2 = acc.2 ∧ acc.1 = none) ∧
        ∀ e ∈ es, RightEnd g e.1 → out.2 ≤ e.2.2.1 := by
    intro es
    induction es with
    | nil => intro acc ha; exact ⟨acc, rfl, ha, Int.le_refl _, fun h => ⟨rfl, h⟩, by simp⟩
    | cons e es ih =>
      intro acc ha
      rw [List.foldl_cons]
      by_cases hc : ((isVowel e.1 && !g) || (isConsonant e.1 && g)) = true
      · rw [if_pos hc]
        by_cases hlt : e.2.2.1 < acc.2
        · rw [if_pos hlt]
          obtain ⟨out, h1, h2, h3, h4, h5⟩ := ih (some e.2, e.2.2.1) (by rintro r ⟨⟩; rfl)
          refine ⟨out, h1, h2, by (dsimp only at h3; omega), fun h => absurd (h4 h).2 (by simp), ?_⟩
          intro e' he' hr
          rcases List.mem_cons.1 he' with rfl | he'
          · exact h3
          · exact h5 e' he' hr
        · rw [if_neg hlt]
          obtain ⟨out, h1, h2, h3, h4, h5⟩ := ih acc ha
          refine ⟨out, h1, h2, h3, h4, ?_⟩
          intro e' he' hr
          rcases List.mem_cons.1 he' with rfl | he'
          · omega
          · exact h5 e' he' hr
      · rw [if_neg hc]
        obtain ⟨out, h1, h2, h3, h4, h5⟩ := ih acc ha
        refine ⟨out, h1, h2, h3, h4, ?_⟩
        intro e' he' hr
        rcases List.mem_cons.1 he' with rfl | he'
        · exfalso
          apply hc
          rcases hr with ⟨h1, h2⟩ | ⟨h1, h2⟩ <;> simp [h1, h2]
        · exact h5 e' he' hr
  obtain ⟨out, h1, h2, h3, h4, h5⟩ := key (bucket b .tosynone 2) (none, 10 ^ 100) (by rintro r ⟨⟩)
  rw [h1]
  constructor
  · intro r hr l e he hl
    rw [← h2 r hr]
    exact h5 (l, e) (mem_bucket.2 he) hl
  · intro hr l e he hl
    have := (h4 hr).1
    have := h5 (l, e) (mem_bucket.2 he) hl
    dsimp only at *
    omega

end Jvotci
