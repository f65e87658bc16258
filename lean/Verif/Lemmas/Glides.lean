import Verif.Lemmas.Cutter
import Verif.Lemmas.Fix

/-!
# Helper lemmas: `glides` without experimental rafsi
-/

namespace Jvotci

open Spec

/-- A rafsi whose consonants are counted in the same way with and without `glides`. -/
def Solid (r : RafsiOpt) : Prop := r.2 = 2 ∨ ∃ c t, r.1 = c :: t ∧ isConsonant c = true

theorem slice_self (l : Str) (i : Nat) : slice l i i = [] := by simp [slice]

theorem newConsonants_glides {o : CombineOpts} {g : Bool} {lujvo rafsi hyphen : Str} {n : Nat} (h : Solid (rafsi, n)) :
    newConsonants { o with glides := g } lujvo rafsi hyphen n = newConsonants o lujvo rafsi hyphen n := by
  unfold newConsonants
  split
  · rfl
  · dsimp only
    split
    · rcases h with h | ⟨c, t, h, hc⟩
      · simp at h; subst h; rfl
      · simp at h; subst h
        have hq : (c == '\'') = false := by
          cases he : c == '\'' with
          | false => rfl
          | true => simp at he; subst he; exact absurd hc (by decide)
        simp only [List.dropWhile_cons, hq]
        cases lujvo.reverse.dropWhile isHyphenLetter <;> simp [hc]
    · rfl

theorem combine_glides {o : CombineOpts} {g : Bool} {lujvo : Str} {r : RafsiOpt} {n : Nat} {sc : Int}
    {il : List (Nat × Nat)} {tos : Tos} (h : Solid r) :
    combine { o with glides := g } lujvo r.1 n r.2 sc il tos = combine o lujvo r.1 n r.2 sc il tos := by
  unfold combine
  split
  · simp only [slice_self]
    simp only [show rafsiTarmi [] = .other from rfl]
    simp only [newConsonants_glides (o := o) (g := g) h, chooseHyphen]
    simp
  · rfl

theorem foldlM_congr' {α β : Type} {f g : β → α → Except Err β} : ∀ {l : List α} {b : β},
    (∀ b, ∀ a ∈ l, f b a = g b a) → l.foldlM f b = l.foldlM g b := by
  intro l
  induction l with
  | nil => intro b _; rfl
  | cons a l ih =>
    intro b h
    rw [List.foldlM_cons, List.foldlM_cons, h b a (by simp)]
    congr 1
    funext b'
    exact ih (fun b a ha => h b a (by simp [ha]))

theorem searchStages_glides {o : CombineOpts} {g : Bool} {ll : List (List RafsiOpt)} (h : ∀ l ∈ ll, ∀ r ∈ l, Solid r) :
    searchStages { o with glides := g } ll = searchStages o ll := by
  unfold searchStages
  match ll, h with
  | [], _ => rfl
  | [l0], _ => rfl
  | l0 :: l1 :: rest, h =>
    dsimp only
    have h1 : firstStage { o with glides := g, tanruLen := (l0 :: l1 :: rest).length } l0 l1 =
        firstStage { o with tanruLen := (l0 :: l1 :: rest).length } l0 l1 := by
      unfold firstStage
      refine foldlM_congr' fun b r0 _ => foldlM_congr' fun b r1 hr1 => ?_
      have := combine_glides (o := { o with tanruLen := (l0 :: l1 :: rest).length }) (g := g) (lujvo := r0.1) (n := r0.2)
        (sc := score r0.1) (il := [(0, (stripHyphens r0.1).length)]) (tos := initialTos o.generateCmevla r0.1)
        (h l1 (by simp) r1 hr1)
      dsimp only at this ⊢
      rw [this]
    have h2 : ∀ b, ∀ l ∈ rest, nextStage { o with glides := g, tanruLen := 0 } b l =
        nextStage { o with tanruLen := 0 } b l := by
      intro b l hl
      unfold nextStage
      refine foldlM_congr' fun b r hr => foldlM_congr' fun b tos _ => foldlM_congr' fun b n _ => foldlM_congr' fun b e _ => ?_
      have := combine_glides (o := { o with tanruLen := 0 }) (g := g) (lujvo := e.2.1) (n := n)
        (sc := e.2.2.1) (il := e.2.2.2) (tos := tos) (h l (by simp [hl]) r hr)
      dsimp only at this ⊢
      rw [this]
    rw [h1]
    congr 1
    funext b
    exact foldlM_congr' fun b l hl => h2 b l hl

theorem apostrophise_cons {f : Bool} {c : Char} {t : Str} (hc : isConsonant c = true) :
    apostrophise f (c :: t) = .ok (c :: t) := by
  unfold apostrophise
  split
  · rfl
  · simp [idx, not_vowel_of_consonant hc, bind, Except.bind]

theorem getRafsiForRafsi_glides {r : Str} {t : RType} {f l : Bool} {c : Consonants} {g g' : Bool}
    (h : t ≠ .experimental) : getRafsiForRafsi r t f l c g = getRafsiForRafsi r t f l c g' := by
  cases t with
  | experimental => exact absurd rfl h
  | tarmi t => cases t <;> rfl
  | _ => rfl

theorem getRafsiForRafsi_solid {r : Str} {t : RType} {f l : Bool} {c : Consonants} {g : Bool} {os : List RafsiOpt}
    (h : t ≠ .experimental) (ht : ∀ u, t = .tarmi u → rafsiTarmi r = u)
    (ho : getRafsiForRafsi r t f l c g = .ok os) : ∀ o ∈ os, Solid o := by
  have key : ∀ {o : RafsiOpt}, o.2 = 2 → Solid o := fun h => .inl h
  unfold getRafsiForRafsi at ho
  obtain ⟨r', hr', h1⟩ := bind_ok ho
  have two : ∀ {a b : Str}, os = [(a, 2)] ∨ os = [(a, 2), (b, 2)] ∨ os = [] → ∀ o ∈ os, Solid o := by
    rintro a b (rfl | rfl | rfl) o hm
    · simp at hm; subst hm; exact .inl rfl
    · simp at hm; rcases hm with rfl | rfl <;> exact .inl rfl
    · cases hm
  have vow : ∀ u, t = .tarmi u → u = .cvv ∨ u = .cvhv → ∃ c t, r' = c :: t ∧ isConsonant c = true := by
    intro u hu h'
    have hu' := ht u hu
    have : ∃ c t, r = c :: t ∧ isConsonant c = true := by
      rcases h' with rfl | rfl
      · obtain ⟨a, b, c, rfl, ha, -⟩ := tarmi_cvv.1 hu'; exact ⟨_, _, rfl, ha⟩
      · obtain ⟨a, b, c, rfl, ha, -⟩ := tarmi_cvhv.1 hu'; exact ⟨_, _, rfl, ha⟩
    obtain ⟨c, t, rfl, hc⟩ := this
    rw [apostrophise_cons hc] at hr'
    cases hr'
    exact ⟨c, t, rfl, hc⟩
  have vowOk : ∀ {n : Nat}, (∃ c t, r' = c :: t ∧ isConsonant c = true) →
      ((if f = true then (.ok [(r' ++ s%"'", n), (r', n)] : Except Err (List RafsiOpt))
        else if (!l) = true then .ok [(r' ++ s%"'y", n), (r', n)] else .ok [(r', n)]) = .ok os) → ∀ o ∈ os, Solid o := by
    rintro n ⟨c, t, rfl, hc⟩ h o ho
    right
    split at h
    · cases h
      simp at ho
      rcases ho with rfl | rfl
      · exact ⟨c, _, rfl, hc⟩
      · exact ⟨c, _, rfl, hc⟩
    · split at h <;> cases h
      · simp at ho
        rcases ho with rfl | rfl
        · exact ⟨c, _, rfl, hc⟩
        · exact ⟨c, _, rfl, hc⟩
      · simp at ho
        subst ho
        exact ⟨c, _, rfl, hc⟩
  have fourOk : ((if (!l) = true then (.ok [(r' ++ s%"y", 2)] : Except Err (List RafsiOpt)) else do
      let l ← idxLast r'
      if !isVowel l then .ok [(r', 2)] else .ok []) = .ok os) → ∀ o ∈ os, Solid o := by
    intro h
    split at h
    · cases h; exact two (b := []) (.inl rfl)
    · obtain ⟨l', -, h2⟩ := bind_ok h
      split at h2 <;> cases h2
      · exact two (b := []) (.inl rfl)
      · intro o ho; cases ho
  have longOk : ((if l = true then (.ok [(r', 2)] : Except Err (List RafsiOpt)) else .ok [(r' ++ s%"'y", 2)]) = .ok os) →
      ∀ o ∈ os, Solid o := by
    intro h
    split at h <;> cases h <;> exact two (b := []) (.inl rfl)
  cases t with
  | experimental => exact absurd rfl h
  | shortBrivla => exact fourOk h1
  | longBrivla => exact longOk h1
  | tarmi u =>
    cases u with
    | cvv => exact vowOk (vow _ rfl (.inl rfl)) h1
    | cvhv => exact vowOk (vow _ rfl (.inr rfl)) h1
    | ccvc => exact fourOk h1
    | cvcc => exact fourOk h1
    | ccvcv => exact longOk h1
    | cvccv => exact longOk h1
    | ccv => cases h1; exact two (.inr (.inl rfl))
    | cvc =>
      dsimp only at h1
      split at h1 <;> cases h1
      · exact two (.inr (.inl rfl))
      · exact two (b := []) (.inl rfl)
    | hyphen => cases h1
    | other => cases h1

theorem rafsiListShort_glides {R : Rec} {s : Settings} {g f l : Bool} {v : Str} :
    rafsiListShort R { s with glides := g } f l v = rafsiListShort R s f l v := by
  unfold rafsiListShort
  dsimp only
  simp only [getRafsiForRafsi_glides (g := g) (g' := s.glides) (t := .shortBrivla) (by simp)]

theorem rafsiListShort_solid {R : Rec} {s : Settings} {f l : Bool} {v : Str} {os : List RafsiOpt}
    (h : rafsiListShort R s f l v = .ok os) : ∀ o ∈ os, Solid o := by
  have key : ∀ {os}, getRafsiForRafsi v .shortBrivla f l s.consonants s.glides = .ok os → ∀ o ∈ os, Solid o :=
    getRafsiForRafsi_solid (by simp) (by simp)
  unfold rafsiListShort at h
  obtain ⟨⟨t, ps⟩, -, h1⟩ := bind_ok h
  dsimp only at h1
  split at h1
  · cases h1
  · obtain ⟨c, -, h2⟩ := bind_ok h1
    split at h2
    · split at h2
      · cases h2
      · exact key h2
      · exact key h2
      · cases h2
    · exact key h2

theorem rafsiKind_plain {R : Rec} {s : Settings} {v : Str} {t : RType} (he : s.expRafsi = false)
    (h : rafsiKind R s v = .ok t) : t = .longBrivla := by
  unfold rafsiKind at h
  split at h
  · split at h <;> cases h
    rfl
  · rw [if_neg (by simp [he])] at h; cases h
  · cases h

theorem rafsiListRafsi_glides {R : Rec} {s : Settings} {g f l : Bool} {v : Str} (he : s.expRafsi = false) :
    rafsiListRafsi R { s with glides := g } f l v = rafsiListRafsi R s f l v := by
  unfold rafsiListRafsi
  dsimp only
  split
  · have : rafsiKind R { s with glides := g } v = rafsiKind R s v := rfl
    rw [this]
    cases hk : rafsiKind R s v with
    | error e => rfl
    | ok t =>
      rw [rafsiKind_plain he hk]
      rfl
  · split
    · rfl
    · exact getRafsiForRafsi_glides (by simp)

theorem rafsiListRafsi_solid {R : Rec} {s : Settings} {f l : Bool} {v : Str} {os : List RafsiOpt}
    (he : s.expRafsi = false) (h : rafsiListRafsi R s f l v = .ok os) : ∀ o ∈ os, Solid o := by
  unfold rafsiListRafsi at h
  dsimp only at h
  split at h
  · obtain ⟨t, ht, h1⟩ := bind_ok h
    rw [rafsiKind_plain he ht] at h1
    exact getRafsiForRafsi_solid (by simp) (by simp) h1
  · split at h
    · cases h
    · exact getRafsiForRafsi_solid (by simp) (by simp) h

theorem rafsiListTable_glides {s : Settings} {g f l : Bool} : ∀ {rs : List Str},
    rafsiListTable { s with glides := g } f l rs = rafsiListTable s f l rs := by
  intro rs
  induction rs with
  | nil => rfl
  | cons r rs ih =>
    unfold rafsiListTable
    dsimp only
    rw [ih, getRafsiForRafsi_glides (g := g) (g' := s.glides) (by simp)]

theorem rafsiListTable_solid {s : Settings} {f l : Bool} : ∀ {rs : List Str} {os : List RafsiOpt},
    rafsiListTable s f l rs = .ok os → ∀ o ∈ os, Solid o := by
  intro rs
  induction rs with
  | nil => intro os h; cases h; simp
  | cons r rs ih =>
    intro os h
    unfold rafsiListTable at h
    split at h
    · exact ih h
    · obtain ⟨a, ha, h1⟩ := bind_ok h
      obtain ⟨b, hb, h2⟩ := bind_ok h1
      cases h2
      intro o ho
      rcases List.mem_append.1 ho with ho | ho
      · exact getRafsiForRafsi_solid (by simp) (by simp) ha o ho
      · exact ih hb o ho

theorem rafsiListWord_glides {R : Rec} {s : Settings} {g f l : Bool} {v : Str} :
    rafsiListWord R { s with glides := g } f l v = rafsiListWord R s f l v := by
  unfold rafsiListWord
  simp only [rafsiListTable_glides, getRafsiForRafsi_glides (g := g) (g' := s.glides) (t := .shortBrivla) (by simp),
    getRafsiForRafsi_glides (g := g) (g' := s.glides) (t := .longBrivla) (by simp)]

theorem rafsiListWord_solid {R : Rec} {s : Settings} {f l : Bool} {v : Str} {os : List RafsiOpt}
    (h : rafsiListWord R s f l v = .ok os) : ∀ o ∈ os, Solid o := by
  unfold rafsiListWord at h
  split at h
  · cases h
  · obtain ⟨a, ha, h1⟩ := bind_ok h
    obtain ⟨t, -, h2⟩ := bind_ok h1
    obtain ⟨b, hb, h3⟩ := bind_ok h2
    obtain ⟨c, hc, h4⟩ := bind_ok h3
    cases h4
    intro o ho
    rcases List.mem_append.1 ho with ho | ho
    · rcases List.mem_append.1 ho with ho | ho
      · exact rafsiListTable_solid ha o ho
      · split at hb
        · exact getRafsiForRafsi_solid (by simp) (by simp) hb o ho
        · cases hb; cases ho
    · split at hc
      · exact getRafsiForRafsi_solid (by simp) (by simp) hc o ho
      · cases hc; cases ho

theorem rafsiListFor_glides {R : Rec} {s : Settings} {g f l : Bool} {v : Str} (he : s.expRafsi = false) :
    rafsiListFor R { s with glides := g } f l v = rafsiListFor R s f l v := by
  unfold rafsiListFor
  simp only [rafsiListShort_glides, rafsiListRafsi_glides he, rafsiListWord_glides]

theorem rafsiListFor_solid {R : Rec} {s : Settings} {f l : Bool} {v : Str} {os : List RafsiOpt}
    (he : s.expRafsi = false) (h : rafsiListFor R s f l v = .ok os) : ∀ o ∈ os, Solid o := by
  unfold rafsiListFor at h
  obtain ⟨c, -, h1⟩ := bind_ok h
  split at h1
  · obtain ⟨d, -, h2⟩ := bind_ok h1
    dsimp only at h2
    by_cases ho : (!isOnlyLojban (stripBoth (· == '-') v)) = true
    · rw [if_pos ho] at h2; cases h2
    · rw [if_neg ho] at h2
      obtain ⟨e, -, h3⟩ := bind_ok h2
      split at h3
      · cases h3
      · split at h3
        · exact rafsiListShort_solid h3
        · exact rafsiListRafsi_solid he h3
  · exact rafsiListWord_solid h1

theorem rafsiListListFrom_glides {R : Rec} {s : Settings} {g : Bool} {n : Nat} (he : s.expRafsi = false) :
    ∀ {vs : List Str} {i : Nat}, rafsiListListFrom R { s with glides := g } n i vs = rafsiListListFrom R s n i vs := by
  intro vs
  induction vs with
  | nil => intro i; rfl
  | cons v vs ih =>
    intro i
    unfold rafsiListListFrom
    simp only [rafsiListFor_glides he, ih]

theorem rafsiListListFrom_solid {R : Rec} {s : Settings} {n : Nat} (he : s.expRafsi = false) :
    ∀ {vs : List Str} {i : Nat} {ll : List (List RafsiOpt)}, rafsiListListFrom R s n i vs = .ok ll →
      ∀ l ∈ ll, ∀ r ∈ l, Solid r := by
  intro vs
  induction vs with
  | nil => intro i ll h; cases h; simp
  | cons v vs ih =>
    intro i ll h
    unfold rafsiListListFrom at h
    obtain ⟨a, ha, h1⟩ := bind_ok h
    obtain ⟨b, hb, h2⟩ := bind_ok h1
    cases h2
    intro l hl
    rcases List.mem_cons.1 hl with rfl | hl
    · exact rafsiListFor_solid he ha
    · exact ih hb l hl

theorem getLujvoFromList_glides {R : Rec} {s : Settings} {g gc : Bool} {vs : List Str} (he : s.expRafsi = false) :
    getLujvoFromList R { s with glides := g } gc vs = getLujvoFromList R s gc vs := by
  unfold getLujvoFromList getRafsiListList
  rw [rafsiListListFrom_glides he]
  cases hl : rafsiListListFrom R s vs.length 0 vs with
  | error e => rfl
  | ok ll =>
    rw [ok_bind, ok_bind]
    have := searchStages_glides (o := combineOpts s gc) (g := g) (rafsiListListFrom_solid he hl)
    have h2 : combineOpts { s with glides := g } gc = { combineOpts s gc with glides := g } := rfl
    rw [h2, this]

theorem jvokaha_glides {R : Rec} {y : YHyphens} {c : Consonants} {g g' mz : Bool} {w : Str} :
    jvokaha R y c g mz w = jvokaha R y c g' mz w := by
  unfold jvokaha
  have := fun gc vs => getLujvoFromList_glides (R := R) (s := { yHyphens := y, consonants := c, glides := g', allowMz := mz })
    (g := g) (gc := gc) (vs := vs) rfl
  dsimp only at this
  simp only [this]


/-! ## The loop over the parts of a word with `y` -/

/-- tools.py:346-454: what `analyse_brivla` does with a part after looking at its first letter. -/
def partTail (R : Rec) (ctx : ACtx) (i : Nat) (part : Str) (resultParts : List Str) (isMahortai hasCluster : Bool)
    (numConsonants : Nat) : Except Err AState := do
  let f ← partForm ctx i hasCluster part
  let nextHyphen : Str := if f.trailingH then s%"'" else []
  let (found, didKaha) ← (if f.canBeRafsi then tryKaha R ctx f else Except.ok ([], false))
  let resultParts := if didKaha then resultParts ++ found else resultParts
  let (numConsonants, hasCluster) := countFound found (numConsonants, hasCluster)
  if didKaha then do
    if (rafsiTarmi f.part = .cvv ∨ rafsiTarmi f.part = .cvhv) ∧
        f.requireCluster ∧ !hasCluster ∧ !ctx.isCmevlatai ∧
        (ctx.s.yHyphens = .standard ∨
          ¬ (i + 2 = ctx.yParts.length ∧
              (rafsiTarmi ((ctx.yParts[1]?).getD []) = .cvv ∨ rafsiTarmi ((ctx.yParts[1]?).getD []) = .ccv)))
    then .error .notBrivla
    else
    let _ ← (if i = 0 then tosmabruTest R ctx f else Except.ok ())
    .ok { resultParts, nextHyphen, hasCluster, isMahortai, consonantBeforeBreak := false, numConsonants }
  else do
    let requireZihevla := f.requireCluster || !ctx.s.expRafsi
    let shape ← (match checkZihevlaOrRafsi R requireZihevla ctx.s.yHyphens ctx.s.expRafsi ctx.s.allowMz f.part with
      | .error .notZihevla => Except.error .notBrivla
      | x => x)
    let _ ← (if shape = .zihevla ∧ f.didAddA then do
        if ← succeeds (jvokaha2 ctx.s.yHyphens ctx.s.allowMz f.part) then Except.error .notBrivla
        else .ok ()
      else Except.ok ())
    let hasCluster := if shape = .zihevla then true else hasCluster
    let p0 ← idx f.part 0
    let numConsonants :=
      if isConsonant p0 || (ctx.s.glides && isGlide f.part) then numConsonants + 1 else numConsonants
    .ok { resultParts := resultParts ++ [f.partCopy], nextHyphen, hasCluster, isMahortai,
          consonantBeforeBreak := false, numConsonants }

theorem analysePart_eq {R : Rec} {ctx : ACtx} {i : Nat} {part0 : Str} {st : AState} :
    analysePart R ctx i part0 st = (do
      let nextHyphen := if i ≠ 0 then st.nextHyphen ++ s%"y" else st.nextHyphen
      let (part, leadingH) ← stripLeadingH i part0
      let nextHyphen := if leadingH then nextHyphen ++ s%"'" else nextHyphen
      let resultParts := if nextHyphen.isEmpty then st.resultParts else st.resultParts ++ [nextHyphen]
      if rafsiTarmi part = .cvc then
        .ok { st with resultParts := resultParts ++ [part], nextHyphen := [],
                      consonantBeforeBreak := true, numConsonants := st.numConsonants + 2 }
      else
      let c0 ← idx part 0
      let isMahortai := if i > 0 && (isConsonant c0 || isGlide part) then false else st.isMahortai
      let hasCluster :=
        if st.consonantBeforeBreak && (isConsonant c0 || (ctx.s.glides && isGlide part)) then true
        else st.hasCluster
      partTail R ctx i part resultParts isMahortai hasCluster st.numConsonants) := rfl


/-- tools.py:366-454. -/
def partBody (R : Rec) (ctx : ACtx) (i : Nat) (resultParts : List Str) (isMahortai hasCluster : Bool)
    (numConsonants : Nat) (f : PartForm) : Except Err AState := do
  let nextHyphen : Str := if f.trailingH then s%"'" else []
  let (found, didKaha) ← (if f.canBeRafsi then tryKaha R ctx f else Except.ok ([], false))
  let resultParts := if didKaha then resultParts ++ found else resultParts
  let (numConsonants, hasCluster) := countFound found (numConsonants, hasCluster)
  if didKaha then do
    if (rafsiTarmi f.part = .cvv ∨ rafsiTarmi f.part = .cvhv) ∧
        f.requireCluster ∧ !hasCluster ∧ !ctx.isCmevlatai ∧
        (ctx.s.yHyphens = .standard ∨
          ¬ (i + 2 = ctx.yParts.length ∧
              (rafsiTarmi ((ctx.yParts[1]?).getD []) = .cvv ∨ rafsiTarmi ((ctx.yParts[1]?).getD []) = .ccv)))
    then .error .notBrivla
    else
    let _ ← (if i = 0 then tosmabruTest R ctx f else Except.ok ())
    .ok { resultParts, nextHyphen, hasCluster, isMahortai, consonantBeforeBreak := false, numConsonants }
  else do
    let requireZihevla := f.requireCluster || !ctx.s.expRafsi
    let shape ← (match checkZihevlaOrRafsi R requireZihevla ctx.s.yHyphens ctx.s.expRafsi ctx.s.allowMz f.part with
      | .error .notZihevla => Except.error .notBrivla
      | x => x)
    let _ ← (if shape = .zihevla ∧ f.didAddA then do
        if ← succeeds (jvokaha2 ctx.s.yHyphens ctx.s.allowMz f.part) then Except.error .notBrivla
        else .ok ()
      else Except.ok ())
    let hasCluster := if shape = .zihevla then true else hasCluster
    let p0 ← idx f.part 0
    let numConsonants :=
      if isConsonant p0 || (ctx.s.glides && isGlide f.part) then numConsonants + 1 else numConsonants
    .ok { resultParts := resultParts ++ [f.partCopy], nextHyphen, hasCluster, isMahortai,
          consonantBeforeBreak := false, numConsonants }

theorem partTail_eq {R : Rec} {ctx : ACtx} {i : Nat} {part : Str} {rp : List Str} {m h : Bool} {n : Nat} :
    partTail R ctx i part rp m h n = (partForm ctx i h part >>= partBody R ctx i rp m h n) := rfl

/-- Two states that differ at most in a number of consonants that is not looked at any more. -/
def StRel (st st' : AState) : Prop :=
  (∃ n, st' = { st with numConsonants := n }) ∧ (st.numConsonants = st'.numConsonants ∨ st.hasCluster = true)

/-- The same up to `StRel`. -/
def ResRel (x x' : Except Err AState) : Prop :=
  (∃ st st', x = .ok st ∧ x' = .ok st' ∧ StRel st st') ∨ ∃ e, x = .error e ∧ x' = .error e

theorem ResRel.err {e : Err} : ResRel (.error e) (.error e) := .inr ⟨e, rfl, rfl⟩

theorem ResRel.bind {α : Type} {x : Except Err α} {f f' : α → Except Err AState} (h : ∀ a, x = .ok a → ResRel (f a) (f' a)) :
    ResRel (x >>= f) (x >>= f') := by
  cases x with
  | error e => exact .err
  | ok a => exact h a rfl

theorem countFound_snd : ∀ {l : List Str} {n n' : Nat} {c : Bool}, (countFound l (n, c)).2 = (countFound l (n', c)).2 := by
  intro l
  induction l with
  | nil => intros; rfl
  | cons p l ih => intro n n' c; unfold countFound; split <;> exact ih

theorem countFound_true : ∀ {l : List Str} {n : Nat}, (countFound l (n, true)).2 = true := by
  intro l
  induction l with
  | nil => intros; rfl
  | cons p l ih => intro n; unfold countFound; split <;> exact ih

theorem check_zihevla {R : Rec} {y : YHyphens} {e mz : Bool} {v : Str} {sh : Shape}
    (h : checkZihevlaOrRafsi R true y e mz v = .ok sh) : sh = .zihevla := by
  unfold checkZihevlaOrRafsi at h
  split at h
  · cases h
  · obtain ⟨st, -, h1⟩ := bind_ok h
    split at h1
    · cases h1
    · obtain ⟨_, -, h2⟩ := bind_ok h1
      split at h2
      · rw [if_pos rfl] at h2; cases h2
      · obtain ⟨c, -, h3⟩ := bind_ok h2
        obtain ⟨sk, -, h4⟩ := bind_ok h3
        split at h4
        · obtain ⟨b, -, h5⟩ := bind_ok h4
          split at h5 <;> cases h5
          rfl
        · cases h4; rfl

/-- The part is read as a zi'evla. -/
theorem partBody_zih {R : Rec} {ctx : ACtx} {i : Nat} {rp : List Str} {m h h' : Bool} {n n' : Nat} {f : PartForm}
    {rc g : Bool} (he : ctx.s.expRafsi = false)
    (hk : ∀ r, (if f.canBeRafsi then tryKaha R ctx f else Except.ok ([], false)) = .ok r → r.2 = false) :
    ResRel (partBody R ctx i rp m h n f)
      (partBody R { ctx with s := { ctx.s with glides := g } } i rp m h' n' { f with requireCluster := rc }) := by
  unfold partBody
  refine ResRel.bind (f := _) (f' := _) (x := if f.canBeRafsi then tryKaha R ctx f else Except.ok ([], false)) fun r hr => ?_
  obtain ⟨found, did⟩ := r
  have := hk _ hr
  dsimp only at this
  subst this
  dsimp only
  rw [if_neg (by simp), if_neg (by simp)]
  simp only [he, Bool.not_false, Bool.or_true]
  cases hc : checkZihevlaOrRafsi R true ctx.s.yHyphens false ctx.s.allowMz f.part with
  | error e =>
    cases e <;> exact .err
  | ok sh =>
    have := check_zihevla hc
    subst this
    refine ResRel.bind (x := Except.ok Shape.zihevla) fun sh hsh => ?_
    cases hsh
    refine ResRel.bind fun _ _ => ?_
    refine ResRel.bind fun c _ => ?_
    exact .inl ⟨_, _, rfl, rfl, ⟨_, rfl⟩, .inr rfl⟩

theorem partBody_same {R : Rec} {ctx : ACtx} {i : Nat} {rp : List Str} {m h : Bool} {n n' : Nat} {f : PartForm}
    {g : Bool} (he : ctx.s.expRafsi = false) (hn : n = n' ∨ h = true) :
    ResRel (partBody R ctx i rp m h n f)
      (partBody R { ctx with s := { ctx.s with glides := g } } i rp m h n' f) := by
  by_cases hk : ∀ r, (if f.canBeRafsi then tryKaha R ctx f else Except.ok ([], false)) = .ok r → r.2 = false
  · exact partBody_zih (rc := f.requireCluster) he hk
  · simp only [Classical.not_forall, Bool.not_eq_false] at hk
    obtain ⟨⟨found, did⟩, hr, hd⟩ := hk
    dsimp only at hd
    subst hd
    unfold partBody
    have hr' : (if f.canBeRafsi then tryKaha R { ctx with s := { ctx.s with glides := g } } f else Except.ok ([], false)) =
        .ok (found, true) := hr
    rw [hr, hr', ok_bind, ok_bind]
    dsimp only
    rw [if_pos rfl, if_pos rfl, countFound_snd (n := n) (n' := n')]
    split
    · exact .err
    · refine ResRel.bind (x := if i = 0 then tosmabruTest R ctx f else Except.ok ()) fun _ _ => ?_
      refine .inl ⟨_, _, rfl, rfl, ⟨_, rfl⟩, ?_⟩
      rcases hn with rfl | rfl
      · exact .inl rfl
      · exact .inr countFound_true


/-! ## Parts that begin with a vowel -/

theorem partForm_cluster {ctx : ACtx} {i : Nat} {part : Str} :
    (partForm ctx i false part = .error .index ∧ ctx.yParts[i + 1]? = some []) ∨
    (∃ e, partForm ctx i false part = .error e ∧ partForm ctx i true part = .error e) ∨
    (∃ f rc, partForm ctx i false part = .ok f ∧ partForm ctx i true part = .ok { f with requireCluster := rc }) := by
  unfold partForm
  cases hl : idxLast part with
  | error e => exact .inr (.inl ⟨e, rfl, rfl⟩)
  | ok l =>
    simp only [ok_bind]
    by_cases hq : l = '\''
    · rw [if_pos hq, if_pos hq]
      rw [if_neg (c := ctx.s.yHyphens = .standard ∧ (!true) = true ∧ i + 1 < ctx.yParts.length) (by simp), ok_bind]
      by_cases hc : ctx.s.yHyphens = .standard ∧ (!false) = true ∧ i + 1 < ctx.yParts.length
      · rw [if_pos hc]
        have hlt := hc.2.2
        cases hn : ctx.yParts[i + 1]? with
        | none => simp at hn; omega
        | some q =>
          cases q with
          | nil => left; exact ⟨rfl, rfl⟩
          | cons c q =>
            right
            simp only [Option.getD_some, idx, List.getElem?_cons_zero, ok_bind]
            cases hl' : idxLast (dropLastN part 1) with
            | error e => exact .inl ⟨e, rfl, rfl⟩
            | ok l' =>
              simp only [ok_bind]
              split
              · exact .inl ⟨_, rfl, rfl⟩
              · exact .inr ⟨_, _, rfl, rfl⟩
      · rw [if_neg hc, ok_bind]
        right
        cases hl' : idxLast (dropLastN part 1) with
        | error e => exact .inl ⟨e, rfl, rfl⟩
        | ok l' =>
          simp only [ok_bind]
          split
          · exact .inl ⟨_, rfl, rfl⟩
          · exact .inr ⟨_, _, rfl, rfl⟩
    · rw [if_neg hq, if_neg hq]
      right; right
      split
      · exact ⟨_, _, rfl, rfl⟩
      · exact ⟨_, _, rfl, rfl⟩

theorem partForm_copy {ctx : ACtx} {i : Nat} {h : Bool} {part : Str} {f : PartForm} (hf : partForm ctx i h part = .ok f) :
    f.partCopy = part ∨ f.partCopy = dropLastN part 1 := by
  unfold partForm at hf
  obtain ⟨l, -, h1⟩ := bind_ok hf
  dsimp only at h1
  split at h1
  · obtain ⟨rc, -, h2⟩ := bind_ok h1
    obtain ⟨l', -, h3⟩ := bind_ok h2
    split at h3 <;> cases h3
    exact .inr rfl
  · split at h1 <;> cases h1 <;> exact .inl rfl

theorem tryKaha_vowel {R : Rec} {ctx : ACtx} {f : PartForm} {r : List Str × Bool}
    (hv : ∀ c t, f.partCopy = c :: t → isConsonant c = false)
    (h : tryKaha R ctx f = .ok r) : r.2 = false := by
  unfold tryKaha at h
  obtain ⟨_, -, h1⟩ := bind_ok h
  split at h1
  · cases h1; rfl
  · cases h1; rfl
  · cases h1; rfl
  · cases h1
  · rename_i found hj
    obtain ⟨hj, hch⟩ := jvokaha2_ok hj
    have key : found ≠ [] → False := by
      intro hne
      match found, hch, hne with
      | p :: ps, .rafsi hc _, _ =>
        obtain ⟨c, t, rfl, hcc⟩ := rafsi_first hc.rafsi
        have := hv c _ hj.symm
        rw [this] at hcc; cases hcc
    split at h1
    · cases h1; rfl
    · exact (key (by simp)).elim
    · rename_i hne _; exact (key hne).elim

/-- One part, with `glides` and without. -/
theorem analysePart_glides {R : Rec} {ctx : ACtx} {i : Nat} {part0 : Str} {st st' : AState}
    (he : ctx.s.expRafsi = false) (hg : ctx.s.glides = false) (hs : StRel st st') :
    (analysePart R ctx i part0 st = .error .index ∧ ctx.yParts[i + 1]? = some []) ∨
    ResRel (analysePart R ctx i part0 st) (analysePart R { ctx with s := { ctx.s with glides := true } } i part0 st') := by
  obtain ⟨⟨n, rfl⟩, hn⟩ := hs
  rw [analysePart_eq, analysePart_eq]
  cases hl : stripLeadingH i part0 with
  | error e => exact .inr .err
  | ok r =>
    obtain ⟨part, lh⟩ := r
    simp only [ok_bind]
    by_cases hcvc : rafsiTarmi part = .cvc
    · rw [if_pos hcvc, if_pos hcvc]
      right
      refine .inl ⟨_, _, rfl, rfl, ⟨_, rfl⟩, ?_⟩
      rcases hn with h | h
      · left; dsimp only at h ⊢; rw [h]
      · exact .inr h
    · rw [if_neg hcvc, if_neg hcvc]
      cases hc0 : idx part 0 with
      | error e => exact .inr .err
      | ok c0 =>
        simp only [ok_bind]
        simp only [hg, Bool.false_and, Bool.true_and, Bool.or_false]
        simp only [partTail_eq]
        by_cases hcl : (if st.consonantBeforeBreak && (isConsonant c0 || isGlide part) then true else st.hasCluster) =
            (if st.consonantBeforeBreak && isConsonant c0 then true else st.hasCluster)
        · rw [hcl]
          right
          refine ResRel.bind (x := partForm ctx i _ part) fun f _ => ?_
          refine partBody_same he ?_
          rcases hn with h | h
          · exact .inl h
          · right; simp [h]
        · have h1 : (if st.consonantBeforeBreak && isConsonant c0 then true else st.hasCluster) = false := by
            cases h : (if st.consonantBeforeBreak && isConsonant c0 then true else st.hasCluster) with
            | false => rfl
            | true =>
              exfalso
              apply hcl
              rw [h]
              cases h1 : st.consonantBeforeBreak <;> cases h2 : isConsonant c0 <;> cases h3 : isGlide part <;> simp_all
          have h2 : (if st.consonantBeforeBreak && (isConsonant c0 || isGlide part) then true else st.hasCluster) = true := by
            cases h : (if st.consonantBeforeBreak && (isConsonant c0 || isGlide part) then true else st.hasCluster) with
            | true => rfl
            | false => exact absurd (h.trans h1.symm) hcl
          have h3 : isConsonant c0 = false := by
            cases h : isConsonant c0 with
            | false => rfl
            | true => rw [h] at hcl; simp at hcl
          rw [h1, h2]
          rcases partForm_cluster (ctx := ctx) (i := i) (part := part) with ⟨h4, h5⟩ | ⟨e, h4, h5⟩ | ⟨f, rc, h4, h5⟩
          · left; rw [h4]; exact ⟨rfl, h5⟩
          · right
            rw [h4, show partForm { ctx with s := { ctx.s with glides := true } } i true part = partForm ctx i true part from rfl, h5]
            exact .err
          · right
            rw [h4, show partForm { ctx with s := { ctx.s with glides := true } } i true part = partForm ctx i true part from rfl, h5]
            refine partBody_zih he ?_
            intro r hr
            split at hr
            · refine tryKaha_vowel ?_ hr
              intro c t e
              have hc : part.head? = some c0 := by
                cases part with
                | nil => cases hc0
                | cons a b => simpa [idx] using hc0
              rcases partForm_copy h4 with h | h
              · rw [h] at e; rw [e] at hc; simp at hc; rw [hc]; exact h3
              · rw [h] at e
                have : part.head? = some c := by
                  cases part with
                  | nil => simp [dropLastN] at e
                  | cons a b => 
                    cases b with
                    | nil => simp [dropLastN] at e
                    | cons b1 b2 => simp [dropLastN] at e; simp [e.1]
                rw [hc] at this
                cases this
                exact h3
            · cases hr; rfl

/-- All parts. -/
theorem analyseLoop_glides {R : Rec} {ctx : ACtx} (he : ctx.s.expRafsi = false) (hg : ctx.s.glides = false) :
    ∀ {ps : List Str} {i : Nat} {st st' : AState}, ps = ctx.yParts.drop i → StRel st st' →
    (analyseLoop R ctx i ps st = .error .index ∧
      ∃ e, analyseLoop R { ctx with s := { ctx.s with glides := true } } i ps st' = .error e) ∨
    ResRel (analyseLoop R ctx i ps st) (analyseLoop R { ctx with s := { ctx.s with glides := true } } i ps st') := by
  intro ps
  induction ps with
  | nil => intro i st st' _ hs; exact .inr (.inl ⟨st, st', rfl, rfl, hs⟩)
  | cons p ps ih =>
    intro i st st' hp hs
    have hp' : ps = ctx.yParts.drop (i + 1) := by
      rw [← List.tail_drop, ← hp]; rfl
    unfold analyseLoop
    rcases analysePart_glides (R := R) (i := i) (part0 := p) he hg hs with ⟨h1, h2⟩ | ⟨a, a', h1, h2, h3⟩ | ⟨e, h1, h2⟩
    · left
      rw [h1]
      refine ⟨rfl, ?_⟩
      cases h3 : analysePart R { ctx with s := { ctx.s with glides := true } } i p st' with
      | error e => exact ⟨e, rfl⟩
      | ok a =>
        rw [ok_bind]
        have : ps.head? = some [] := by rw [hp', List.head?_drop, h2]
        match ps, this with
        | q :: ps, hq =>
          cases hq
          exact ⟨.notBrivla, rfl⟩
    · rw [h1, h2]
      exact ih hp' h3
    · right
      rw [h1, h2]
      exact .err

/-- The same result, or an exception in both cases. -/
def Alike {α : Type} (x x' : Except Err α) : Prop := x = x' ∨ (x = .error .index ∧ ∃ e, x' = .error e)

theorem analyseY_glides {R : Rec} {s : Settings} {cm : Bool} {v : Str} {yp : List Str} (he : s.expRafsi = false)
    (hg : s.glides = false) :
    Alike (analyseY R s cm v yp) (analyseY R { s with glides := true } cm v yp) := by
  unfold analyseY
  dsimp only
  rcases analyseLoop_glides (R := R) (ctx := { s, isCmevlatai := cm, yParts := yp }) he hg (ps := yp) (i := 0)
      (st := {}) (st' := {}) rfl ⟨⟨0, rfl⟩, .inl rfl⟩ with ⟨h1, e, h2⟩ | ⟨a, a', h1, h2, h3⟩ | ⟨e, h1, h2⟩
  · right
    rw [h1]
    refine ⟨rfl, e, ?_⟩
    dsimp only at h2
    rw [h2]
    rfl
  · left
    dsimp only at h2
    rw [h1, h2, ok_bind, ok_bind]
    obtain ⟨⟨n, rfl⟩, hn⟩ := h3
    have : consonantsOk { s := { s with glides := true }, isCmevlatai := cm, yParts := yp } { a with numConsonants := n } =
        consonantsOk { s := s, isCmevlatai := cm, yParts := yp } a := by
      rcases hn with h | h
      · dsimp only at h; rw [← h]; rfl
      · unfold consonantsOk
        simp [h]
    rw [this]
  · left
    dsimp only at h2
    rw [h1, h2]
    rfl

theorem analyseR_glides {R : Rec} {s : Settings} {w : Str} (he : s.expRafsi = false) (hg : s.glides = false) :
    Alike (analyseR R s w) (analyseR R { s with glides := true } w) := by
  unfold analyseR
  cases hn : normalise w with
  | error e => exact .inl rfl
  | ok v =>
    rw [ok_bind, ok_bind]
    unfold analyseNorm
    split
    · dsimp only
      rw [jvokaha_glides (g := true) (g' := s.glides)]
      split
      · exact .inl rfl
      · split
        · exact .inl rfl
        · split
          · exact .inl rfl
          · have key : ∀ cm c0, Alike (analyseRest R s cm c0 v) (analyseRest R { s with glides := true } cm c0 v) := by
              intro cm c0
              unfold analyseRest
              dsimp only
              split
              · exact .inl rfl
              · split
                · exact .inl rfl
                · exact analyseY_glides he hg
            split
            · exact .inl rfl
            · exact key _ _
            · exact key _ _
            · exact key _ _
            · exact .inl rfl
    · exact .inl rfl

end Jvotci
