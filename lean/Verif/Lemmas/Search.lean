import Verif.Lemmas.Sim

/-!
# Helper lemmas: `combine` and the search of `get_lujvo_from_list`
-/

namespace Jvotci

open Spec

theorem picks_concat {α : Type} {ls : List (List α)} {xs : List α} {l : List α} {x : α}
    (h : Picks ls xs) (hx : x ∈ l) : Picks (ls ++ [l]) (xs ++ [x]) := by
  induction h with
  | nil => exact .cons hx .nil
  | cons h1 _ ih => exact .cons h1 ih

theorem picks_length {α : Type} {ls : List (List α)} {xs : List α} (h : Picks ls xs) :
    ls.length = xs.length := by
  induction h with
  | nil => rfl
  | cons _ _ ih => simp [ih]

theorem picks_concat_inv {α : Type} {ls : List (List α)} {xs : List α} {l : List α}
    (h : Picks (ls ++ [l]) xs) : ∃ ys x, xs = ys ++ [x] ∧ Picks ls ys ∧ x ∈ l := by
  induction ls generalizing xs with
  | nil =>
    cases h with
    | cons hx h =>
      cases h
      exact ⟨[], _, rfl, .nil, hx⟩
  | cons a ls ih =>
    cases h with
    | cons hx h =>
      obtain ⟨ys, x, rfl, h1, h2⟩ := ih h
      exact ⟨_, x, rfl, .cons hx h1, h2⟩

/-- What the last two lines of `combine` compute as the total number of consonants. -/
def totalConsonants (o : CombineOpts) (lc new : Nat) : Nat :=
  if o.consonants = .oneConsonant ∧ min 2 (lc + new) > 0 then 2 else min 2 (lc + new)

theorem combine_some {o : CombineOpts} {lujvo rafsi : Str} {lc rc : Nat} {sc : Int}
    {il : List (Nat × Nat)} {tos : Tos} {c : Cand}
    (h : combine o lujvo rafsi lc rc sc il tos = .ok (some c)) :
    ∃ last first hyphen new, lujvo.getLast? = some last ∧ rafsi.head? = some first ∧ il ≠ [] ∧
      (isConsonant last = true → isConsonant first = true → (validPairs o.allowMz).contains [last, first] = true) ∧
      (first = '\'' → last = 'y' ∨ last = '\'') ∧
      BANNED_TRIPLES.contains (last :: slice rafsi 0 2) = false ∧
      (tarmiIgnoringHyphen rafsi = .other → last = 'y' ∨ last = '\'') ∧
      chooseHyphen o lujvo last first (tarmiIgnoringHyphen rafsi) = some hyphen ∧
      nextTos tos rafsi last first (tarmiIgnoringHyphen rafsi) = some c.tos ∧
      newConsonants o lujvo rafsi hyphen rc = .ok new ∧
      c.consonants = totalConsonants o lc new ∧
      c.score = sc + score hyphen + score rafsi - tiebreak (lujvo ++ hyphen ++ rafsi) ∧
      c.lujvo = lujvo ++ hyphen ++ rafsi ∧
      c.indices = il ++ [(lujvo.length + hyphen.length + (if first = '\'' then 1 else 0),
        lujvo.length + hyphen.length + (if first = '\'' then 1 else 0) + (stripHyphens rafsi).length)] := by
  unfold combine at h
  split at h
  · rename_i last first prev h1 h2 h3
    split at h
    · cases h
    · rename_i hpair
      split at h
      · cases h
      · rename_i happ
        split at h
        · cases h
        · rename_i hban
          dsimp only at h
          split at h
          · cases h
          · rename_i hother
            split at h
            · cases h
            · split at h
              · cases h
              · rename_i hyphen hhy
                split at h
                · cases h
                · rename_i tos' htos
                  obtain ⟨new, hnew, h⟩ := bind_ok h
                  cases h
                  refine ⟨last, first, hyphen, new, h1, h2, ?_, ?_, ?_, by simpa using hban, ?_, hhy, htos, hnew, rfl, rfl, rfl, rfl⟩
                  · rintro rfl; simp at h3
                  · intro ha hb; simpa [ha, hb] using hpair
                  · intro hf
                    by_cases hy : last = 'y'
                    · exact .inl hy
                    · right
                      by_cases hq : last = '\''
                      · exact hq
                      · exact absurd ⟨hy, hq, hf⟩ happ
                  · intro hf
                    by_cases hy : last = 'y'
                    · exact .inl hy
                    · right
                      by_cases hq : last = '\''
                      · exact hq
                      · exact absurd ⟨hy, hq, hf⟩ hother
  · cases h

/-- A candidate built from the given rafsi forms, one per component; `N` is the number of components. -/
inductive Built (o : CombineOpts) (N : Nat) : List RafsiOpt → Cand → Prop
  | two {r0 r1 : RafsiOpt} {c} :
      combine { o with tanruLen := N } r0.1 r1.1 r0.2 r1.2 (score r0.1) [(0, (stripHyphens r0.1).length)]
        (initialTos o.generateCmevla r0.1) = .ok (some c) → Built o N [r0, r1] c
  | more {rs} {r : RafsiOpt} {c c'} : Built o N rs c →
      combine { o with tanruLen := 0 } c.lujvo r.1 c.consonants r.2 c.score c.indices c.tos = .ok (some c') →
      Built o N (rs ++ [r]) c'

theorem foldlM_inv {α β : Type} {P : β → Prop} {f : β → α → Except Err β} {l : List α}
    (hstep : ∀ a ∈ l, ∀ b b', P b → f b a = .ok b' → P b') :
    ∀ {b b'}, P b → l.foldlM f b = .ok b' → P b' := by
  induction l with
  | nil => intro b b' hb h; cases h; exact hb
  | cons a l ih =>
    intro b b' hb h
    rw [List.foldlM_cons] at h
    obtain ⟨b1, h1, h⟩ := bind_ok h
    exact ih (fun x hx => hstep x (List.mem_cons_of_mem _ hx)) (hstep a (List.mem_cons_self ..) _ _ hb h1) h

/-- The table entry of a candidate. -/
def Entry (c : Cand) (e : (Tos × Nat × Char) × (Str × Int × List (Nat × Nat))) : Prop :=
  ∃ l, c.lujvo.getLast? = some l ∧ e = ((c.tos, c.consonants, l), (c.lujvo, c.score, c.indices))

theorem bestInsert_mem {k : Tos × Nat × Char} {v : Str × Int × List (Nat × Nat)} {b : Best}
    {e : (Tos × Nat × Char) × (Str × Int × List (Nat × Nat))} (h : e ∈ bestInsert k v b) :
    e = (k, v) ∨ e ∈ b := by
  induction b with
  | nil => simpa [bestInsert] using h
  | cons a b ih =>
    unfold bestInsert at h
    split at h
    · split at h
      · rcases List.mem_cons.1 h with h | h
        · exact .inl h
        · exact .inr (List.mem_cons_of_mem _ h)
      · exact .inr h
    · rcases List.mem_cons.1 h with h | h
      · exact .inr (by simp [h])
      · rcases ih h with h | h
        · exact .inl h
        · exact .inr (List.mem_cons_of_mem _ h)

theorem updateCurrentBest_mem {c : Option Cand} {b b' : Best} (h : updateCurrentBest c b = .ok b')
    {e : (Tos × Nat × Char) × (Str × Int × List (Nat × Nat))} (he : e ∈ b') :
    (∃ d, c = some d ∧ Entry d e) ∨ e ∈ b := by
  unfold updateCurrentBest at h
  cases c with
  | none => cases h; exact .inr he
  | some d =>
    obtain ⟨l, hl, h⟩ := bind_ok h
    cases h
    rcases bestInsert_mem he with he | he
    · exact .inl ⟨d, rfl, l, idxLast_ok hl, he⟩
    · exact .inr he

theorem mem_bucket {b : Best} {tos : Tos} {n : Nat} {e : Char × (Str × Int × List (Nat × Nat))} :
    e ∈ bucket b tos n ↔ ((tos, n, e.1), e.2) ∈ b := by
  unfold bucket
  rw [List.mem_filterMap]
  constructor
  · rintro ⟨x, hx, h⟩
    split at h
    · rename_i hk
      cases h
      obtain ⟨⟨a, b, c⟩, d⟩ := x
      simp at hk
      rw [← hk.1, ← hk.2]
      exact hx
    · cases h
  · intro h
    exact ⟨_, h, by simp⟩

/-- All entries of a table come from forms taken one from each list. -/
def Sound (o : CombineOpts) (N : Nat) (ls : List (List RafsiOpt)) (b : Best) : Prop :=
  ∀ e ∈ b, ∃ rs c, Picks ls rs ∧ Built o N rs c ∧ Entry c e

theorem firstStage_sound {o : CombineOpts} {l0 l1 : List RafsiOpt} {N : Nat} {b : Best}
    (h : firstStage { o with tanruLen := N } l0 l1 = .ok b) : Sound o N [l0, l1] b := by
  unfold firstStage at h
  refine foldlM_inv (P := Sound o N [l0, l1]) ?_ (by intro e he; cases he) h
  intro r0 h0 b b' hb h
  refine foldlM_inv (P := Sound o N [l0, l1]) ?_ hb h
  intro r1 h1 b b' hb h
  obtain ⟨c, hc, h⟩ := bind_ok h
  intro e he
  rcases updateCurrentBest_mem h he with ⟨d, rfl, hd⟩ | he
  · exact ⟨[r0, r1], d, .cons h0 (.cons h1 .nil), .two hc, hd⟩
  · exact hb e he

theorem nextStage_sound {o : CombineOpts} {l : List RafsiOpt} {N : Nat} {ls : List (List RafsiOpt)} {b b' : Best}
    (hb : Sound o N ls b) (h : nextStage { o with tanruLen := 0 } b l = .ok b') : Sound o N (ls ++ [l]) b' := by
  unfold nextStage at h
  refine foldlM_inv (P := Sound o N (ls ++ [l])) ?_ (by intro e he; cases he) h
  intro r hr b1 b1' hb1 h
  refine foldlM_inv (P := Sound o N (ls ++ [l])) ?_ hb1 h
  intro tos _ b2 b2' hb2 h
  refine foldlM_inv (P := Sound o N (ls ++ [l])) ?_ hb2 h
  intro n _ b3 b3' hb3 h
  refine foldlM_inv (P := Sound o N (ls ++ [l])) ?_ hb3 h
  intro e he b4 b4' hb4 h
  obtain ⟨c, hc, h⟩ := bind_ok h
  intro x hx
  rcases updateCurrentBest_mem h hx with ⟨d, rfl, hd⟩ | hx
  · obtain ⟨rs, c0, hp, hbt, l0, hl0, hee⟩ := hb _ (mem_bucket.1 he)
    simp only [Prod.mk.injEq] at hee
    obtain ⟨⟨ht, hn, -⟩, he2⟩ := hee
    refine ⟨rs ++ [r], d, picks_concat hp hr, .more hbt ?_, hd⟩
    rw [ht, hn, he2] at hc
    exact hc
  · exact hb4 x hx

theorem searchStages_sound {o : CombineOpts} {ll : List (List RafsiOpt)} {b : Best}
    (h : searchStages o ll = .ok b) : Sound o ll.length ll b := by
  unfold searchStages at h
  split at h
  · cases h
  · split at h
    · cases h; intro e he; cases he
    · cases h
  · rename_i l0 l1 rest
    obtain ⟨b0, h0, h⟩ := bind_ok h
    have h0 := firstStage_sound h0
    generalize (l0 :: l1 :: rest).length = N at h0 h ⊢
    have key : ∀ (rest : List (List RafsiOpt)) (ls : List (List RafsiOpt)) (b0 : Best), Sound o N ls b0 →
        rest.foldlM (fun b l => nextStage { o with tanruLen := 0 } b l) b0 = .ok b → Sound o N (ls ++ rest) b := by
      intro rest
      induction rest with
      | nil => intro ls b0 h0 h; cases h; simpa using h0
      | cons l rest ih =>
        intro ls b0 h0 h
        rw [List.foldlM_cons] at h
        obtain ⟨b1, h1, h⟩ := bind_ok h
        have := ih (ls ++ [l]) b1 (nextStage_sound h0 h1) h
        simpa using this
    exact key rest [l0, l1] b0 h0 h

/-- The result of `pickBest` is an item of the table with the right kind of last letter. -/
theorem pickBest_mem {g : Bool} {b : Best} {r : Str × Int × List (Nat × Nat)} (h : pickBest g b = some r) :
    ∃ l, ((Tos.tosynone, 2, l), r) ∈ b ∧ ((isVowel l = true ∧ g = false) ∨ (isConsonant l = true ∧ g = true)) := by
  unfold pickBest at h
  have key : ∀ (es : List (Char × (Str × Int × List (Nat × Nat)))) (acc : Option (Str × Int × List (Nat × Nat)) × Int),
      (∀ e ∈ es, ((Tos.tosynone, 2, e.1), e.2) ∈ b) →
      (∀ r, acc.1 = some r → ∃ l, ((Tos.tosynone, 2, l), r) ∈ b ∧ ((isVowel l = true ∧ g = false) ∨ (isConsonant l = true ∧ g = true))) →
      (∀ r, (es.foldl (fun (acc : Option (Str × Int × List (Nat × Nat)) × Int) e =>
        if (isVowel e.1 && !g) || (isConsonant e.1 && g) then
          if e.2.2.1 < acc.2 then (some e.2, e.2.2.1) else acc
        else acc) acc).1 = some r → ∃ l, ((Tos.tosynone, 2, l), r) ∈ b ∧ ((isVowel l = true ∧ g = false) ∨ (isConsonant l = true ∧ g = true))) := by
    intro es
    induction es with
    | nil => intro acc _ ha r hr; exact ha r hr
    | cons e es ih =>
      intro acc hes ha r hr
      rw [List.foldl_cons] at hr
      refine ih _ (fun e he => hes e (List.mem_cons_of_mem _ he)) ?_ r hr
      intro r hr
      split at hr
      · rename_i hc
        split at hr
        · cases hr
          refine ⟨e.1, hes e (List.mem_cons_self ..), ?_⟩
          simpa using hc
        · exact ha r hr
      · exact ha r hr
  exact key _ _ (fun e he => mem_bucket.1 he) (by intro r hr; cases hr) r h

/-- What `getLujvoFromList` returns was built from forms of the rafsi lists. -/
theorem getLujvoFromList_ok {R : Rec} {s : Settings} {g : Bool} {vs : List Str} {r : Str × Int × List (Nat × Nat)}
    (h : getLujvoFromList R s g vs = .ok r) :
    ∃ ll rs c l, getRafsiListList R s vs = .ok ll ∧ Picks ll rs ∧ Built (combineOpts s g) ll.length rs c ∧
      c.tos = .tosynone ∧ c.consonants = 2 ∧ c.lujvo.getLast? = some l ∧
      ((isVowel l = true ∧ g = false) ∨ (isConsonant l = true ∧ g = true)) ∧
      r = (c.lujvo, c.score, c.indices) ∧
      (g = false → slinkuhiInJvozba R s.yHyphens s.allowMz c.lujvo = .ok false) := by
  unfold getLujvoFromList at h
  obtain ⟨ll, hll, h⟩ := bind_ok h
  obtain ⟨best, hbest, h⟩ := bind_ok h
  split at h
  · cases h
  · rename_i r' hr
    have hrr : r' = r ∧ (g = false → slinkuhiInJvozba R s.yHyphens s.allowMz r'.1 = .ok false) := by
      cases g with
      | true => simp at h; exact ⟨h, by simp⟩
      | false =>
        simp only [Bool.not_false, if_true] at h
        obtain ⟨sl, hsl, h⟩ := bind_ok h
        cases sl with
        | true => simp at h
        | false => simp at h; exact ⟨h, fun _ => hsl⟩
    obtain ⟨rfl, hsl⟩ := hrr
    obtain ⟨l, hm, hl⟩ := pickBest_mem hr
    obtain ⟨rs, c, hp, hbt, l', hl', he⟩ := searchStages_sound hbest _ hm
    simp only [Prod.mk.injEq] at he
    obtain ⟨⟨ht, hn, hll'⟩, he⟩ := he
    subst hll'
    refine ⟨ll, rs, c, l, hll, hp, hbt, ht.symm, hn.symm, hl', hl, he, ?_⟩
    intro hg
    have := hsl hg
    rw [he] at this
    exact this

/-- A built candidate starts with its first form. -/
theorem Built.prefix {o : CombineOpts} {N : Nat} {rs : List RafsiOpt} {c : Cand} (h : Built o N rs c) :
    ∃ r0 rest t, rs = r0 :: rest ∧ c.lujvo = r0.1 ++ t := by
  induction h with
  | two h =>
    obtain ⟨_, _, hy, _, _, _, _, _, _, _, _, _, _, _, _, _, hl, _⟩ := combine_some h
    exact ⟨_, _, _, rfl, by rw [hl, List.append_assoc]⟩
  | more _ h ih =>
    obtain ⟨r0, rest, t, rfl, hc⟩ := ih
    obtain ⟨_, _, hy, _, _, _, _, _, _, _, _, _, _, _, _, _, hl, _⟩ := combine_some h
    exact ⟨r0, _, _, rfl, by rw [hl, hc, List.append_assoc, List.append_assoc]⟩

end Jvotci
