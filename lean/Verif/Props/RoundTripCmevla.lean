import Verif.Props.BackCmevla
import Verif.Props.RoundTripWords

/-!
# C43, C62 and C35 for cmevla with zi'evla

What `get_veljvo` and `score_lujvo` make of the cmevla that `get_lujvo` makes of words, among them zi'evla, when
`analyse_brivla` accepts them (C38 tells which these are).
-/

namespace Jvotci

open Spec

theorem named_nodash {s : Settings} {v : Str} (hn : Named s v) : v.head? ≠ some '-' := by
  intro h1
  cases hn with
  | known hk =>
    have hcl : ∀ c ∈ v, Vowel c ∨ Consonant c ∨ c = '\'' := by
      rcases hk.form with h | h
      · exact rafsi_letters (.gismu h)
      · exact h.1
    have := hcl _ (List.mem_of_head? h1)
    revert this
    decide
  | zihevla hw => exact (wordType_nodash hw).1 (List.mem_of_head? h1)
  | @cut y e hw =>
    subst e
    cases y with
    | nil => have := (wordType_nodash hw).2; simp at this
    | cons a y =>
      cases h1
      exact (wordType_nodash hw).1 (by simp)

/-- What ends with a consonant and has no y is no brivla, and the question raises no exception. -/
theorem not_brivla_consonant {s : Settings} {x : Str} (hx : Clean x) (hc : ∃ c, x.getLast? = some c ∧ Consonant c) :
    isBrivla .linked s x = .ok false := by
  have hrd : reading x = x := reading_asRead (clean_asRead hx)
  obtain ⟨c, hc, hcc⟩ := hc
  have hy : 'y' ∉ reading x := by
    rw [hrd]
    intro h
    have := hx.letters _ h
    revert this
    decide
  rcases C15_words_without_y_partial .linked s (w := x) (by rintro rfl; cases hc) hy with ⟨-, t, ht⟩ | ⟨h, -⟩
  · cases t with
    | false => exact ht
    | true =>
      obtain ⟨l, hl, hv⟩ := C16_is_brivla.2.2.2 ht
      rw [hrd, hc] at hl
      cases hl
      exact absurd hcc (vowel_not_consonant hv)
  · cases h

/-- **C43** (partial). For a tanru of known gismu and cmavo and of zi'evla, whole or without their last vowel,
`get_veljvo` returns the words that `get_lujvo` made the cmevla of, whenever `analyse_brivla` accepts it
(`C38_cmevla_words_partial`). Missing: as for lujvo (`C43_words_partial`), and the cmevla that are not accepted, for which
it is false. -/
theorem C43_cmevla_words_partial {b : Build} {s : Settings} {t : Tanru} {ws : List Str} {w : Str} {r : BType × List Str}
    (hws : Words t ws) (hv : ∀ v ∈ ws, Named s (reading v)) (h : getLujvo b s true t = .ok w) (hm : ∀ v ∈ ws, NoMzWord s (reading v))
    (ha : analyseBrivla .linked s w = .ok r) (hlen : w.length + 1 < 10 ^ 93) : getVeljvo .linked s w = .ok (ws.map reading) := by
  obtain ⟨⟨w', sc, ix⟩, h0, hw⟩ := bind_ok h
  cases hw
  dsimp only at hlen ha ⊢
  clear h
  replace h := made_linked h0
  rw [hws.list, getLujvoWithAnalytics_program] at h
  obtain ⟨vs, hvs, h⟩ := bind_ok h
  cases mapM_normalise_ok hvs
  have hr : ∀ v ∈ ws.map reading, (∀ d ∈ v, readChar d = [d]) ∧ Named s v := by
    intro v hvm
    obtain ⟨w, hw, rfl⟩ := List.mem_map.1 hvm
    exact ⟨fun d hd => reading_chars hd, hv w hw⟩
  have hm : ∀ v ∈ ws.map reading, NoMzWord s v := by
    intro v hvm
    obtain ⟨w, hw, rfl⟩ := List.mem_map.1 hvm
    exact hm w hw
  obtain ⟨-, hty, -, zs, l, hrep, hu, hlast, hgg, hgaps, hflat⟩ := cm_back (fun v hv => (hr v hv).1) h (.inl hm)
    (fun v hv p _ hd => absurd (dashed_head hd) (named_nodash (hr v hv).2)) hlen
  obtain ⟨ty, ps⟩ := r
  obtain ⟨rfl, -⟩ := hty ty ps ha
  cases hflat ps ha
  have hsh : All2 (ShownAs s) zs (ws.map reading) := by
    refine all2_imp (represents_slots hrep) ?_
    intro z hz v hvm hus
    obtain ⟨h1, h2, h3⟩ := hu z hz
    exact shown_of (hm v hvm) (hr v hvm).2 hus h1 h2 h3
  unfold getVeljvo
  rw [ha, ok_bind]
  have ht : ¬ (BType.cmevla = .gismu ∨ BType.cmevla = .zihevla) := by simp
  simp only [ht, if_false]
  refine selrafsi_gaps hgaps ?_ hgg hsh rfl
  intro _ z hz _
  exact not_brivla_consonant (hu z (List.mem_of_getLast? hz)).2.1 (hlast z hz)

example : getLujvo .pinned {} true (.list [s%"spageti", s%"cidja", s%"angas-"]) = .ok s%"spageti'ydja'y'angas" ∧
    getVeljvo .linked {} s%"spageti'ydja'y'angas" = .ok [s%"spageti", s%"cidja", s%"angas-"] := by decide +kernel

/-- **C43.** The cmevla that are not accepted are not taken apart. -/
theorem C43_false_cmevla : ∃ t w, (∀ v ∈ t, Named {} (reading v)) ∧ getLujvo .linked {} true (.list t) = .ok w ∧
    getVeljvo .linked {} w = .error .notBrivla := by
  have h1 : s%"tivni" ∉ sharedStems := by decide +kernel
  have h2 : (RAFSI_LIST.find? (fun e => e.1 == s%"tivni")).isSome = true := by decide +kernel
  refine ⟨[s%"kriksav-", s%"tivni"], s%"kriksavytiv", ?_, by decide +kernel⟩
  intro v hv
  rcases List.mem_cons.1 hv with rfl | hv
  · exact .cut (x := s%"kriksav") (by decide) ⟨[s%"kriksava"], by decide +kernel⟩
  · cases List.mem_singleton.1 hv
    rw [List.find?_isSome] at h2
    obtain ⟨⟨v', rs⟩, hm, e⟩ := h2
    rw [beq_iff_eq] at e
    cases e
    have e : reading s%"tivni" = s%"tivni" := by decide
    rw [e]
    exact .known ⟨⟨rs, hm⟩, .inl (isGismu_iff.1 (by decide)), h1⟩

/-- **C62** (partial). Two such tanru with the same cmevla, which `analyse_brivla` accepts, are the same but for the
spelling. -/
theorem C62_cmevla_partial {b : Build} {s : Settings} {t t' : Tanru} {ws ws' : List Str} {w : Str} {r : BType × List Str}
    (hws : Words t ws) (hv : ∀ v ∈ ws, Named s (reading v) ∧ NoMzWord s (reading v))
    (hws' : Words t' ws') (hv' : ∀ v ∈ ws', Named s (reading v) ∧ NoMzWord s (reading v))
    (h : getLujvo b s true t = .ok w) (h' : getLujvo b s true t' = .ok w)
    (ha : analyseBrivla .linked s w = .ok r) (hlen : w.length + 1 < 10 ^ 93) : ws.map reading = ws'.map reading := by
  have h1 := C43_cmevla_words_partial hws (fun v h => (hv v h).1) h (fun v h => (hv v h).2) ha hlen
  have h2 := C43_cmevla_words_partial hws' (fun v h => (hv' v h).1) h' (fun v h => (hv' v h).2) ha hlen
  rw [h1] at h2
  exact Except.ok.inj h2

example : ∀ w ∈ [s%"angas-", s%"Angas-", s%"ANGAS-", s%".angas-"],
    getLujvo .linked {} true (.list [s%"spageti", s%"cidja", w]) = .ok s%"spageti'ydja'y'angas" := by decide +kernel

/-- **C35** (partial). For a tanru of words, none between dashes, and the cmevla made of it, when it is accepted,
`score_lujvo` gives a value, and it is related to the reported one as in `C35_relation_partial`. -/
theorem C35_cmevla_words_partial {b : Build} {s : Settings} {t : Tanru} {ws : List Str} {w : Str} {sc : Int} {ix : List (Nat × Nat)}
    {r : BType × List Str} (hws : Words t ws) (hv : ∀ v ∈ ws, (reading v).head? ≠ some '-')
    (h : getLujvoWithAnalytics b s true t = .ok (w, sc, ix)) (hm : ∀ v ∈ ws, NoMzWord s (reading v))
    (ha : analyseBrivla .linked s w = .ok r) (hlen : w.length + 1 < 10 ^ 93) :
    getRafsiIndices r.2 = ix ∧
      ∃ tie tie' : Int, (tie = 1 ∧ TieAt w ix ∨ tie = 0 ∧ ¬ TieAt w ix) ∧ (tie' = 1 ∧ TieShape w ∨ tie' = 0 ∧ ¬ TieShape w) ∧
      scoreLujvo .linked s w = .ok (sc - 100 * (r.2.count s%"y" : Int) + tie - tie') := by
  obtain ⟨ty, ps⟩ := r
  obtain ⟨rfl, hix⟩ := (C38_cmevla_words_partial hws hv h hm hlen).1 ty ps ha
  obtain ⟨sc', hsc⟩ := (C44_returns s w).2 ⟨_, ps, ha, .inr (.inr rfl)⟩
  obtain ⟨tie, tie', h1, h2, e⟩ := C35_relation_partial (made_linked h) ha hix hsc
  exact ⟨hix, tie, tie', h1, h2, by rw [hsc, e]⟩

example : getLujvoWithAnalytics .linked {} true (.list [s%"spageti", s%"cidja", s%"angas-"]) =
    .ok (s%"spageti'ydja'y'angas", 20124, [(0, 7), (9, 12), (15, 20)]) ∧
    scoreLujvo .linked {} s%"spageti'ydja'y'angas" = .ok 20124 := by decide +kernel

end Jvotci
