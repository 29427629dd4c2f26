import Verif.Vlog.Source
/-
The text of the library, read as a whole.
-/
namespace Verif.Vlog
open Verif.Tpl Verif.Hw

/-- A text that is read as the modules `as`. -/
def ReadsAll (t : List Char) (as : List Mod) : Prop :=
  ∃ L : List (List Tok × Mod), scan .idle t = (L.flatMap Prod.fst, .idle) ∧ L.map Prod.snd = as ∧
    ∀ p ∈ L, 20 ≤ p.1.length ∧ ∀ d rest, pModule (d + 20) (p.1 ++ rest) = some (p.2, rest)

theorem ReadsAll.nil : ReadsAll [] [] := ⟨[], rfl, rfl, by simp⟩

theorem ReadsAll.append {s t : List Char} {as bs : List Mod} (h : ReadsAll s as) (h' : ReadsAll t bs) : ReadsAll (s ++ t) (as ++ bs) := by
  obtain ⟨L, hs, rfl, hL⟩ := h
  obtain ⟨L', ht, rfl, hL'⟩ := h'
  refine ⟨L ++ L', ?_, by simp, fun p hp => ?_⟩
  · rw [scan_append, hs]; simp only [ht, List.flatMap_append]
  · rcases List.mem_append.mp hp with hp | hp
    · exact hL p hp
    · exact hL' p hp

theorem ReadsAll.one {t : List Char} {a : Mod} (h : Reads t a) : ReadsAll t [a] := by
  obtain ⟨ts, hs, hl, hp⟩ := h.toks
  exact ⟨[(ts, a)], by rw [hs]; simp, rfl, by simpa using ⟨hl, hp⟩⟩

theorem ReadsAll.quiet {t : List Char} (h : scan .idle t = ([], .idle)) : ReadsAll t [] := ⟨[], by rw [h]; rfl, rfl, by simp⟩

theorem source_read : ∀ (L : List (List Tok × Mod)) (d : Nat),
    (∀ p ∈ L, 20 ≤ p.1.length ∧ ∀ d rest, pModule (d + 20) (p.1 ++ rest) = some (p.2, rest)) → (L.flatMap Prod.fst).length < d →
    pSource d (L.flatMap Prod.fst) = some (L.map Prod.snd)
  | [], d, _, _ => by cases d <;> rfl
  | p :: L, d, h, hd => by
    obtain ⟨h1, h2⟩ := h p List.mem_cons_self
    simp only [List.flatMap_cons, List.length_append] at hd
    obtain ⟨e, rfl⟩ : ∃ e, d = e + 20 + 1 := ⟨d - 21, by omega⟩
    have ih := source_read L (e + 20) (fun q hq => h q (List.mem_cons_of_mem _ hq)) (by omega)
    obtain ⟨t, ts, ht⟩ : ∃ t ts, p.1 = t :: ts := by
      cases hp : p.1 with
      | nil => rw [hp] at h1; simp at h1
      | cons t ts => exact ⟨t, ts, rfl⟩
    have hm := h2 e (L.flatMap Prod.fst)
    simp only [List.flatMap_cons, List.map_cons]
    rw [ht] at hm ⊢
    rw [List.cons_append] at hm ⊢
    rw [pSource, hm]
    · simp only [ih, Option.map_some]
    · simp

theorem ReadsAll.read {t : List Char} {as : List Mod} (h : ReadsAll t as) : read t = some as := by
  obtain ⟨L, hs, rfl, hL⟩ := h
  unfold Vlog.read lex
  rw [hs]
  simp only [flush, List.append_nil]
  exact source_read L _ hL (by omega)

/-! ### The sections -/

/-- The section a module is in. -/
def sectionOf (m : Module) : Option String := (moduleDict m).map Prod.fst

/-- The modules read from a section. -/
def sectionMods (ms : List Module) (n : String) : List Mod := (ms.filter fun m => sectionOf m = some n).filterMap astOf

/-- What the generator relies on: as `Readable`; a FIFO has a positive latency. -/
structure LibOK (m : Module) : Prop extends Readable m where
  fifo : stubOf m.name = some .fifo → m.latency ≠ 0

theorem ast_some {m : Module} (h : LibOK m) (hd : moduleDict m ≠ none) : ∃ a, astOf m = some a := by
  unfold moduleDict at hd
  unfold astOf
  split at hd
  · rename_i hs
    rw [hs]
    exact ⟨_, if_neg (h.fifo hs)⟩
  · rename_i hs hargs; rw [hs, hargs]; exact ⟨_, rfl⟩
  · rename_i hs hargs; rw [hs, hargs]; exact ⟨_, rfl⟩
  · exact absurd rfl hd

theorem section_reads {ms : List Module} (h : ∀ m ∈ ms, LibOK m) (n : String) (ds : List Dict) :
    ReadsAll ((sectionDicts ms n).flatMap fun d => expandAll (d :: ds) (bodyOf n)) (sectionMods ms n) := by
  induction ms with
  | nil => exact ReadsAll.nil
  | cons m ms ih =>
    have ih := ih fun m' hm' => h m' (List.mem_cons_of_mem _ hm')
    have hm := h m List.mem_cons_self
    unfold sectionDicts sectionMods sectionOf at ih ⊢
    cases hd : moduleDict m with
    | none =>
      simp only [List.filterMap_cons, hd, List.filter_cons, Option.map_none]
      simpa using ih
    | some p =>
      obtain ⟨n', d⟩ := p
      by_cases hn : n' = n
      · subst hn
        obtain ⟨a, ha⟩ := ast_some hm (by rw [hd]; simp)
        obtain ⟨k, d', hd', _, hr⟩ := module_reads hm.toReadable ha
        rw [hd] at hd'
        cases hd'
        have : ReadsAll _ (a :: _) := (ReadsAll.one (hr ds)).append ih
        simpa [List.filterMap_cons, hd, List.filter_cons, ha] using this
      · simp only [List.filterMap_cons, hd, List.filter_cons, Option.map_some, if_neg hn, Option.some.injEq, hn, decide_false]
        simpa using ih

theorem lookup_sections (f : String → List Dict) (l : List String) (n : String) (hn : n ∈ l) :
    ((l.filterMap fun n => if f n = [] then none else some (n, f n)).lookup n).getD [] = f n := by
  induction l with
  | nil => cases hn
  | cons k l ih =>
    by_cases hk : f k = []
    · rw [List.filterMap_cons_none (by rw [if_pos hk])]
      rcases List.mem_cons.mp hn with rfl | hn
      · rw [hk]
        have : ∀ l : List String, ((l.filterMap fun n => if f n = [] then none else some (n, f n)).lookup n) = none := by
          intro l
          induction l with
          | nil => rfl
          | cons j l ih =>
            by_cases hj : f j = []
            · rw [List.filterMap_cons_none (by rw [if_pos hj])]; exact ih
            · rw [List.filterMap_cons_some (b := (j, f j)) (by rw [if_neg hj])]
              have : (n == j) = false := by
                rw [beq_eq_false_iff_ne]
                rintro rfl
                exact hj hk
              simp only [List.lookup, this]
              exact ih
        rw [this]; rfl
      · exact ih hn
    · rw [List.filterMap_cons_some (b := (k, f k)) (by rw [if_neg hk])]
      by_cases e : n = k
      · subst e; simp [List.lookup]
      · have : (n == k) = false := by rw [beq_eq_false_iff_ne]; exact e
        simp only [List.lookup, this]
        exact ih ((List.mem_cons.mp hn).resolve_left e)

theorem secIn_dict (ms : List Module) (time : List Char) {n : String} (hn : n ∈ sectionNames) : secIn n [dict ms time] = sectionDicts ms n := by
  have := lookup_sections (sectionDicts ms) sectionNames n hn
  rw [secIn, dict, Dict.secs]
  cases h : List.lookup n (sectionNames.filterMap fun n => if sectionDicts ms n = [] then none else some (n, sectionDicts ms n)) with
  | none => rw [h] at this; rw [secIn]; exact this
  | some v => rw [h] at this; exact this

theorem secIn_license (ms : List Module) (time : List Char) : secIn "LICENSE" [dict ms time] = [] := by
  have : (dict ms time).secs.lookup "LICENSE" = none := by
    rw [List.lookup_eq_none_iff]
    intro p hp
    simp only [dict, Dict.secs, List.mem_filterMap] at hp
    obtain ⟨n, hn, hp⟩ := hp
    split at hp
    · cases hp
    · cases hp
      rw [bne_iff_ne]
      rintro e
      subst e
      revert hn; decide
  rw [secIn, this, secIn]

theorem comment_reads (time : List Char) (h : '\n' ∉ time) :
    ReadsAll ((chars% "// This file has been automatically generated by Utopia HLS at ") ++ (time ++ (chars% ".\n\n"))) [] := by
  refine ReadsAll.quiet ?_
  rw [scan_append, show scan .idle (chars% "// This file has been automatically generated by Utopia HLS at ") = ([], .comment) by kernel_rfl, scan_append,
    scan_comment fun c hc e => h (e ▸ hc)]
  kernel_rfl

/-- The modules of the library's text, in order. -/
def libMods (ms : List Module) : List Mod := sectionNames.flatMap (sectionMods ms)

/-- The text of the library is read, and contains the modules. -/
theorem lib_read {ms : List Module} {time : List Char} (h : ∀ m ∈ ms, LibOK m) (ht : '\n' ∉ time) : read (libText ms time) = some (libMods ms) := by
  refine ReadsAll.read ?_
  have S := fun n (hn : n ∈ sectionNames) => by
    have := section_reads h n [dict ms time]
    rw [← secIn_dict ms time hn] at this
    exact this
  have hq : ReadsAll (chars% "\n") [] := ReadsAll.quiet rfl
  have hv : valueIn "GEN_TIME" [dict ms time] = time := rfl
  unfold libText
  rw [render_eq parse_template]
  simp only [nodes, expandAll, expand, hv, secIn_license, List.flatMap_nil, List.nil_append, List.append_nil]
  rw [show libMods ms = [] ++ (sectionMods ms "FIFO_MODULES" ++ ([] ++ (sectionMods ms "COMB_CAST_MODULES" ++ ([] ++ (sectionMods ms "CAST_MODULES" ++
    ([] ++ (sectionMods ms "COMB_BINARY_MODULES" ++ ([] ++ (sectionMods ms "BINARY_MODULES" ++ []))))))))) by
      simp [libMods, sectionNames]]
  have S1 : ReadsAll (List.flatMap (fun d => expandAll [d, dict ms time] fifoBody) _) _ := S "FIFO_MODULES" (by decide)
  have S2 : ReadsAll (List.flatMap (fun d => expandAll [d, dict ms time] combCastBody) _) _ := S "COMB_CAST_MODULES" (by decide)
  have S3 : ReadsAll (List.flatMap (fun d => expandAll [d, dict ms time] castBody) _) _ := S "CAST_MODULES" (by decide)
  have S4 : ReadsAll (List.flatMap (fun d => expandAll [d, dict ms time] combBinaryBody) _) _ := S "COMB_BINARY_MODULES" (by decide)
  have S5 : ReadsAll (List.flatMap (fun d => expandAll [d, dict ms time] binaryBody) _) _ := S "BINARY_MODULES" (by decide)
  have hc := comment_reads time ht
  have := hc.append (S1.append (hq.append (S2.append (hq.append (S3.append (hq.append (S4.append (hq.append (S5.append hq)))))))))
  simpa only [List.append_assoc] using this

theorem mem_sections (ms : List Module) (a : Mod) : a ∈ libMods ms ↔ ∃ m ∈ ms, sectionOf m ≠ none ∧ astOf m = some a := by
  unfold libMods sectionMods
  simp only [List.mem_flatMap, List.mem_filterMap, List.mem_filter, decide_eq_true_eq]
  constructor
  · rintro ⟨n, _, m, ⟨hm, hs⟩, ha⟩
    exact ⟨m, hm, by rw [hs]; simp, ha⟩
  · rintro ⟨m, hm, hs, ha⟩
    obtain ⟨n, hn⟩ := Option.ne_none_iff_exists'.mp hs
    refine ⟨n, ?_, m, ⟨hm, hn⟩, ha⟩
    unfold sectionOf at hn
    obtain ⟨p, hp, rfl⟩ := Option.map_eq_some_iff.mp hn
    unfold moduleDict at hp
    split at hp
    · cases hp; exact List.mem_cons_self
    · cases hp; by_cases e : m.latency = 0
      · simp only [if_pos e]; decide
      · simp only [if_neg e]; decide
    · cases hp; by_cases e : m.latency = 0
      · simp only [if_pos e]; decide
      · simp only [if_neg e]; decide
    · cases hp

end Verif.Vlog
