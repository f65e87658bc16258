import Verif.Lemmas.JsAgree

/-!
The functions of the package, in JavaScript and in Python.
-/

namespace Jvotci

theorem ag_isBrivla (s : Settings) (w : Str) : Ag (isBrivla .linked s w) (jsIsBrivla s w) := by
  unfold isBrivla jsIsBrivla
  rcases (ag_analyseBrivla s w).cases with ⟨a, h1, h2⟩ | ⟨e, h1, hv⟩ | ⟨e, hv, h1, h2⟩
  · rw [h1, h2]; exact Ag.ok _
  · rw [h1]
    rcases hv with rfl | rfl | rfl <;> exact Ag.void (by simp [Void])
  · rw [h1, h2]
    cases e <;> first | exact Ag.ok _ | exact Ag.err _ | exact absurd (by simp [Void]) hv

theorem ag_formatPiece (s : Settings) (pieces : List Str) (i : Nat) (p : Str) :
    Ag (formatPiece .linked s pieces i p) (jsFormatPiece s pieces i p) := by
  unfold formatPiece jsFormatPiece
  rw [jsSearchSelrafsi_eq]
  cases searchSelrafsi p with
  | some g => exact Ag.ok _
  | none =>
    have tail := Ag.bind (ag_isBrivla { yHyphens := s.yHyphens, allowMz := s.allowMz } p) (f := fun b => if b = true then Except.ok p else
        (if i + 1 = pieces.length then isBrivla .linked { yHyphens := s.yHyphens, allowMz := s.allowMz } (p ++ s%"a") else Except.ok false) >>=
          fun y3 => if y3 = true then Except.ok (p ++ s%"-") else Except.ok (s%"-" ++ p ++ s%"-"))
      (f' := fun b => if b = true then Except.ok p else
        (if i + 1 = pieces.length then jsIsBrivla { yHyphens := s.yHyphens, allowMz := s.allowMz } (p ++ s%"a") else Except.ok false) >>=
          fun y3 => if y3 = true then Except.ok (p ++ s%"-") else Except.ok (s%"-" ++ p ++ s%"-"))
      fun b _ => Ag.ite Iff.rfl (fun _ => Ag.ok _) fun _ =>
        Ag.bind (Ag.ite Iff.rfl (fun _ => ag_isBrivla ..) fun _ => Ag.ok _) fun y3 _ => Ag.ite Iff.rfl (fun _ => Ag.ok _) fun _ => Ag.ok _
    simp only
    by_cases hi : i + 2 < pieces.length
    · simp only [hi, if_true, true_and]
      generalize (pieces[i + 1]?).getD [] = q
      cases q with
      | nil => exact Ag.index
      | cons c cs =>
        simp only [idx, List.getElem?_cons_zero, ok_bind, jsAt_cons_zero, Option.some.injEq, List.cons.injEq, and_true, beq_iff_eq]
        exact Ag.bind (Ag.ite Iff.rfl (fun _ => ag_isBrivla ..) fun _ => Ag.ok _) fun y1 _ => Ag.ite Iff.rfl (fun _ => Ag.ok _) fun _ => tail
    · simp only [hi, if_false, false_and, ok_bind, Bool.false_eq_true]
      exact tail

theorem ag_selrafsiFrom (s : Settings) (pieces : List Str) : ∀ (l : List Str) (i : Nat),
    Ag (selrafsiFrom .linked s pieces i l) (jsSelrafsiFrom s pieces i l)
  | [], _ => Ag.ok _
  | p :: ps, i => by
    unfold selrafsiFrom jsSelrafsiFrom
    exact Ag.ite Iff.rfl (fun _ => ag_selrafsiFrom s pieces ps _) fun _ =>
      Ag.bind (ag_formatPiece ..) fun _ _ => Ag.bind (ag_selrafsiFrom s pieces ps _) fun _ _ => Ag.ok _

theorem ag_getVeljvo (s : Settings) (w : Str) : Ag (getVeljvo .linked s w) (jsGetVeljvo s w) := by
  unfold getVeljvo jsGetVeljvo
  exact Ag.bind (ag_analyseBrivla ..) fun a _ => Ag.ite Iff.rfl (fun _ => Ag.err .decomposition) fun _ => ag_selrafsiFrom ..

/-- What `score_lujvo` adds up in JavaScript. -/
theorem jsPieceScore_eq (p : Str) : jsPieceScore p = pieceScore p + if p = s%"y" ∨ p = s%"n" ∨ p = s%"r" then 100 else 0 := by
  unfold jsPieceScore pieceScore
  rw [jsScore_eq]
  by_cases h : p = s%"y" ∨ p = s%"n" ∨ p = s%"r"
  · rw [if_pos h]
    rcases h with rfl | rfl | rfl <;> rfl
  · rw [if_neg h]
    by_cases h0 : p = []
    · subst h0; rfl
    · rw [if_neg (by simp_all), if_neg (by simp_all)]
      omega

theorem jsPieceScore_sum (ps : List Str) :
    (ps.map jsPieceScore).sum = (ps.map pieceScore).sum + 100 * (ps.countP (fun p => p = s%"y" ∨ p = s%"n" ∨ p = s%"r") : Int) := by
  induction ps with
  | nil => rfl
  | cons p ps ih =>
    simp only [List.map_cons, List.sum_cons, ih, jsPieceScore_eq, List.countP_cons]
    by_cases h : p = s%"y" ∨ p = s%"n" ∨ p = s%"r"
    · simp only [h, if_true, decide_true]; omega
    · simp only [h, if_false, decide_false, Bool.false_eq_true]; omega

/-! ## The words of a tanru -/

theorem dropWhile_same {p q : Char → Bool} : ∀ {s : Str}, (∀ c ∈ s, p c = q c) → s.dropWhile p = s.dropWhile q
  | [], _ => rfl
  | c :: cs, h => by
    rw [List.dropWhile_cons, List.dropWhile_cons, h c (by simp), dropWhile_same (s := cs) fun d hd => h d (by simp [hd])]

theorem dropWhile_nil {p : Char → Bool} : ∀ {s : Str}, s.dropWhile p = [] → ∀ c ∈ s, p c = true
  | [], _, _, h => by cases h
  | c :: cs, hd, d, h => by
    rw [List.dropWhile_cons] at hd
    by_cases hc : p c = true
    · rw [if_pos hc] at hd
      rcases List.mem_cons.1 h with rfl | h
      · exact hc
      · exact dropWhile_nil hd d h
    · rw [if_neg hc] at hd; cases hd

theorem splitWsAux_drop : ∀ s : Str, splitWsAux [] s = splitWsAux [] (s.dropWhile isSpace)
  | [] => rfl
  | c :: cs => by
    rw [List.dropWhile_cons]
    by_cases h : isSpace c = true
    · rw [if_pos h, ← splitWsAux_drop cs, splitWsAux, if_pos h]; rfl
    · rw [if_neg h]

theorem splitWsAux_blank : ∀ (s acc : Str), (∀ c ∈ s, isSpace c = true) → splitWsAux acc s = if acc.isEmpty then [] else [acc.reverse]
  | [], acc, _ => rfl
  | c :: cs, acc, h => by
    rw [splitWsAux, if_pos (h c (by simp)), splitWsAux_blank cs [] fun d hd => h d (by simp [hd])]
    rfl

theorem splitWsAux_trail {t : Str} (ht : ∀ c ∈ t, isSpace c = true) : ∀ (s acc : Str), splitWsAux acc (s ++ t) = splitWsAux acc s
  | [], acc => by rw [List.nil_append, splitWsAux_blank t acc ht, splitWsAux]
  | c :: cs, acc => by
    rw [List.cons_append, splitWsAux, splitWsAux, splitWsAux_trail ht cs [], splitWsAux_trail ht cs (c :: acc)]

/-- Words written with one separator or more between them. -/
theorem splitAux_eq : ∀ (n : Nat) (s acc : Str), s.length ≤ n → (∀ c ∈ s, jsIsSpace c = isSpace c) → (∀ l, s.getLast? = some l → isSpace l = false) →
    acc ≠ [] → splitWsAux acc s = jsSplitAux acc s
  | _, [], acc, _, _, _, ha => by
    rw [splitWsAux, jsSplitAux, if_neg (by simpa using ha)]
  | 0, _ :: _, _, hn, _, _, _ => by simp at hn
  | n + 1, c :: cs, acc, hn, hp, hl, ha => by
    have hn' : cs.length ≤ n := by simpa using hn
    have hp' : ∀ d ∈ cs, jsIsSpace d = isSpace d := fun d hd => hp d (by simp [hd])
    have hl' : ∀ l, cs.getLast? = some l → isSpace l = false := by
      intro l h
      apply hl
      rw [List.getLast?_cons, h]; rfl
    rw [splitWsAux, jsSplitAux, hp c (by simp)]
    by_cases hc : isSpace c = true
    · rw [if_pos hc, if_pos hc, if_neg (by simpa using ha), splitWsAux_drop, dropWhile_same hp']
      congr 1
      cases hd : cs.dropWhile isSpace with
      | nil =>
        exfalso
        have hall : ∀ d ∈ cs, isSpace d = true := dropWhile_nil hd
        cases hg : (c :: cs).getLast? with
        | none => simp at hg
        | some l =>
          have h1 := hl l hg
          rcases List.mem_cons.1 (List.mem_of_getLast? hg) with rfl | h2
          · rw [hc] at h1; cases h1
          · rw [hall l h2] at h1; cases h1
      | cons d ds =>
        have hsub : (d :: ds) <:+ cs := hd ▸ List.dropWhile_suffix _
        have hdn : isSpace d = false := by
          have := List.head?_dropWhile_not isSpace cs
          rw [hd] at this
          simpa using this
        obtain ⟨u, e⟩ := hsub
        have hmem : ∀ x ∈ d :: ds, x ∈ cs := fun x hx => by rw [← e]; exact List.mem_append_right _ hx
        rw [splitWsAux, jsSplitAux, hp' d (hmem d (by simp)), hdn]
        simp only [Bool.false_eq_true, if_false]
        refine splitAux_eq n ds [d] ?_ (fun x hx => hp' x (hmem x (by simp [hx]))) ?_ (by simp)
        · have := congrArg List.length e
          simp at this; omega
        · intro l h
          apply hl'
          rw [← e]
          simp [List.getLast?_append, List.getLast?_cons, h]
    · rw [if_neg hc, if_neg hc]
      exact splitAux_eq n cs (c :: acc) hn' hp' hl' (by simp)

theorem splitSpaces_eq {s : Str} (hp : ∀ c ∈ s, jsIsSpace c = isSpace c) (hne : ∃ c ∈ s, isSpace c = false) :
    splitWs s = jsSplitSpaces s := by
  unfold splitWs jsSplitSpaces stripBoth
  rw [splitWsAux_drop, dropWhile_same hp]
  cases hd : s.dropWhile isSpace with
  | nil =>
    exfalso
    obtain ⟨c, hc, h⟩ := hne
    have : ∀ d ∈ s, isSpace d = true := dropWhile_nil hd
    rw [this c hc] at h; cases h
  | cons d ds =>
    have hdn : isSpace d = false := by
      have := List.head?_dropWhile_not isSpace s
      rw [hd] at this
      simpa using this
    have hmem : ∀ x ∈ d :: ds, x ∈ s := fun x hx => (hd ▸ List.dropWhile_sublist isSpace (l := s)).mem hx
    have hp' : ∀ x ∈ d :: ds, jsIsSpace x = isSpace x := fun x hx => hp x (hmem x hx)
    rw [dropWhile_same (p := jsIsSpace) (q := isSpace) (s := (d :: ds).reverse) fun x hx => hp' x (List.mem_reverse.1 hx)]
    have e : (d :: ds) = ((d :: ds).reverse.dropWhile isSpace).reverse ++ ((d :: ds).reverse.takeWhile isSpace).reverse := by
      rw [← List.reverse_append, List.takeWhile_append_dropWhile, List.reverse_reverse]
    have ht : ∀ x ∈ ((d :: ds).reverse.takeWhile isSpace).reverse, isSpace x = true := by
      intro x hx
      exact List.all_eq_true.1 List.all_takeWhile x (by simpa using hx)
    have hlast : ∀ l, (((d :: ds).reverse.dropWhile isSpace).reverse).getLast? = some l → isSpace l = false := by
      intro l h
      rw [List.getLast?_reverse] at h
      have := List.head?_dropWhile_not isSpace (d :: ds).reverse
      rw [h] at this
      simpa using this
    generalize ((d :: ds).reverse.takeWhile isSpace).reverse = t at e ht
    generalize ((d :: ds).reverse.dropWhile isSpace).reverse = m at e hlast
    rw [e, splitWsAux_trail ht]
    cases m with
    | nil =>
      exfalso
      rw [List.nil_append] at e
      have := ht d (by rw [← e]; simp)
      rw [hdn] at this; cases this
    | cons d' ms =>
      obtain ⟨rfl, e⟩ := List.cons.inj e
      rw [splitWsAux, jsSplitAux, hp' d (by simp), hdn]
      simp only [Bool.false_eq_true, if_false]
      refine splitAux_eq _ ms [d] (Nat.le_refl _) (fun x hx => hp' x (by rw [e]; simp [hx])) ?_ (by simp)
      intro l h
      apply hlast
      rw [List.getLast?_cons, h]; rfl

theorem mapM_js {l vs : List Str} (h : l.mapM normalise = .ok vs) : l.map jsNormalise = vs := by
  rw [mapM_normalise_ok h, funext jsNormalise_eq]

theorem mapM_normalise_err {l : List Str} {e : Err} (h : l.mapM normalise = .error e) : e = .index := by
  induction l with
  | nil => cases h
  | cons w ws ih =>
    rw [List.mapM_cons] at h
    cases hn : normalise w with
    | error e' =>
      rw [hn] at h
      cases w with
      | nil => cases hn; cases h; rfl
      | cons c cs => rw [normalise_eq (by simp)] at hn; cases hn
    | ok n =>
      rw [hn, ok_bind] at h
      cases hns : ws.mapM normalise with
      | error e' => rw [hns] at h; cases h; exact ih hns
      | ok ns => rw [hns] at h; cases h

/-- Strings in which JavaScript separates words where Python does. -/
def Separated : Tanru → Prop
  | .list _ => True
  | .str s => ∀ c ∈ s, jsIsSpace c = isSpace c

theorem ag_getLujvoWithAnalytics {s : Settings} (g : Bool) {t : Tanru} (ht : Separated t)
    (hex : ∀ vs, processTanru t = .ok vs → ∀ v ∈ vs, NoExp .linked s v) :
    Ag (getLujvoWithAnalytics .linked s g t) (jsGetLujvoWithAnalytics s g t) := by
  unfold getLujvoWithAnalytics
  refine Ag.bind_left (fun e he => ?_) fun vs hvs => ?_
  · cases t <;> exact mapM_normalise_err he
  · have key : vs ≠ [] → jsProcessTanru t = vs := by
      intro hne
      cases t with
      | list l => exact mapM_js hvs
      | str w =>
        unfold jsProcessTanru
        simp only
        rw [← splitSpaces_eq ht ?_]
        · exact mapM_js hvs
        · refine Classical.byContradiction fun hno => hne ?_
          have hall : ∀ c ∈ w, isSpace c = true := fun c hc => by
            cases h : isSpace c with
            | true => rfl
            | false => exact absurd ⟨c, hc, h⟩ hno
          have : processTanru (.str w) = .ok [] := by
            unfold processTanru
            simp only [splitWs, splitWsAux_blank w [] hall]
            rfl
          rw [this] at hvs
          cases hvs; rfl
    cases vs with
    | nil =>
      have : getLujvoFromList (recN .linked (budget (([] : List Str).map List.length).sum)) s g [] = .error .index := by
        unfold getLujvoFromList
        rfl
      rw [this]; exact Ag.index
    | cons v vs =>
      unfold jsGetLujvoWithAnalytics
      simp only [key (by simp)]
      exact ag_getLujvoFromList (agRec_recN _) g _ (hex _ hvs)

theorem ag_getLujvo {s : Settings} (g : Bool) {t : Tanru} (ht : Separated t)
    (hex : ∀ vs, processTanru t = .ok vs → ∀ v ∈ vs, NoExp .linked s v) :
    Ag (getLujvo .linked s g t) (jsGetLujvo s g t) :=
  Ag.bind (ag_getLujvoWithAnalytics g ht hex) fun _ _ => Ag.ok _

end Jvotci
