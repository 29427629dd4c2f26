import Verif.Dot.ReadProps
import Verif.Whole.Props
/-
C88, continued: which kernels have a DOT file that can be read, and what it shows.
-/
namespace Verif.Dot
open Verif.Dfcxx
open Spec (Tok Mode DotStmt Attrs Picture isKeyword isStart isPart lower ident)

/-- A text without quotes and backslashes. -/
def Quiet (l : List Char) : Prop := ∀ d ∈ l, d ≠ '"' ∧ d ≠ '\\'

theorem part_quiet {c : Char} (h : isPart c = true) : c ≠ '"' ∧ c ≠ '\\' := by
  constructor <;> (rintro rfl; exact absurd h (by decide))

theorem digit_part {c : Char} (h : c.isDigit = true) : isPart c = true := by
  simp [isPart, Char.isAlphanum, h]

theorem start_part {c : Char} (h : isStart c = true) : isPart c = true := by
  simp only [isStart, isPart, Char.isAlphanum, Bool.or_eq_true] at h ⊢
  rcases h with h | h
  · exact .inl (.inl h)
  · exact .inr h

theorem Wordlike.part {s : String} (h : Wordlike s) : ∀ d ∈ s.toList, isPart d = true := by
  obtain ⟨c, r, e, h1, h2⟩ := h
  rw [e]
  intro d hd
  rcases List.mem_cons.mp hd with rfl | hd
  · exact start_part h1
  · exact h2 d hd

theorem Wordlike.quiet {s : String} (h : Wordlike s) : Quiet s.toList := fun d hd => part_quiet (h.part d hd)

theorem nat_digit (k : Nat) : ∀ d ∈ (toString k).toList, d.isDigit = true := by
  have e : (toString k).toList = Nat.toDigits 10 k := by
    show (Nat.repr k).toList = _
    rw [Nat.repr, String.toList_ofList]
  rw [e]
  exact fun d h => Nat.isDigit_of_mem_toDigits (by omega) (by omega) h

theorem nat_ne (k : Nat) : (toString k).toList ≠ [] := by
  have e : (toString k).toList = Nat.toDigits 10 k := by
    show (Nat.repr k).toList = _
    rw [Nat.repr, String.toList_ofList]
  rw [e]
  exact Nat.toDigits_ne_nil

theorem nat_quiet (k : Nat) : Quiet (toString k).toList := fun d h => part_quiet (digit_part (nat_digit k d h))

theorem int_quiet (o : Int) : Quiet (toString o).toList := by
  cases o with
  | ofNat k => exact nat_quiet k
  | negSucc k =>
    have e : (toString (Int.negSucc k)).toList = '-' :: (toString (k + 1)).toList := by
      show (Int.repr (Int.negSucc k)).toList = _
      simp only [Int.repr, String.toList_append]
      rfl
    rw [e]
    intro d hd
    rcases List.mem_cons.mp hd with rfl | hd
    · exact ⟨by decide, by decide⟩
    · exact nat_quiet _ d hd

theorem invented_wordlike {s : String} (h : Invented s) : Wordlike s := by
  obtain ⟨k, rfl⟩ := h
  refine ⟨'n', ['o', 'd', 'e'] ++ (toString k).toList, by rw [String.toList_append]; rfl, by decide, fun d hd => ?_⟩
  rcases List.mem_append.mp hd with hd | hd
  · simp only [List.mem_cons, List.not_mem_nil, or_false] at hd
    rcases hd with rfl | rfl | rfl <;> decide
  · exact digit_part (nat_digit k d hd)

theorem digit_lower {c : Char} (h : c.isDigit = true) : c.toLower = c := by
  have h2 : c.val ≤ 57 := by
    simp only [Char.isDigit, Bool.and_eq_true, decide_eq_true_eq] at h
    exact h.2
  unfold Char.toLower
  split
  · rename_i h3
    have := h3.1
    simp only [UInt32.le_iff_toNat_le] at this h2
    have e1 : (57 : UInt32).toNat = 57 := rfl
    have e2 : ('A' : Char).val.toNat = 65 := rfl
    omega
  · rfl

/-- A number is no part of a reserved word. -/
theorem invented_usable {s : String} (h : Invented s) : Usable s := by
  refine ⟨invented_wordlike h, ?_⟩
  obtain ⟨k, rfl⟩ := h
  have hlow : lower ("node" ++ toString k).toList = ['n', 'o', 'd', 'e'] ++ (toString k).toList := by
    rw [String.toList_append, lower, List.map_append]
    congr 1
    conv_rhs => rw [← List.map_id (toString k).toList]
    exact List.map_congr_left fun d hd => digit_lower (nat_digit k d hd)
  unfold isKeyword
  rw [decide_eq_false_iff_not, hlow]
  cases hk : (toString k).toList with
  | nil => exact absurd hk (nat_ne k)
  | cons d r =>
    intro hm
    simp [Spec.keywords] at hm

/-- The names of the ports of a kernel can be used. -/
structure NamesUsable (w : World) (nodes : List Nat) : Prop where
  usable : ∀ n ∈ nodes, (w.node n).name ≠ "" → Usable (w.node n).name
  distinct : ∀ n ∈ nodes, ∀ m ∈ nodes, (w.node n).name ≠ "" → (w.node n).name = (w.node m).name → n = m
  free : ∀ n ∈ nodes, ¬ Invented (w.node n).name

theorem drawn_shape {name shape label : String} {op : OpType} {d : NodeData} (h : Drawn name op d shape label) : Usable shape := by
  have key : shape = "diamond" ∨ shape = "invtriangle" ∨ shape = "triangle" ∨ shape = "invtrapezium" ∨ shape = "box" := by
    cases h <;> simp
  rcases key with rfl | rfl | rfl | rfl | rfl
  · exact ⟨⟨'d', "iamond".toList, by decide, by decide, by decide⟩, by decide⟩
  · exact ⟨⟨'i', "nvtriangle".toList, by decide, by decide, by decide⟩, by decide⟩
  · exact ⟨⟨'t', "riangle".toList, by decide, by decide, by decide⟩, by decide⟩
  · exact ⟨⟨'i', "nvtrapezium".toList, by decide, by decide, by decide⟩, by decide⟩
  · exact ⟨⟨'b', "ox".toList, by decide, by decide, by decide⟩, by decide⟩

theorem quiet_append {a b : String} (ha : Quiet a.toList) (hb : Quiet b.toList) : Quiet (a ++ b).toList := by
  intro d hd
  rw [String.toList_append] at hd
  exact (List.mem_append.mp hd).elim (ha d) (hb d)

theorem drawn_label {name shape label : String} {op : OpType} {d : NodeData} (hn : Wordlike name) (h : Drawn name op d shape label) :
    Quiet label.toList := by
  cases h with
  | offset o => exact int_quiet o
  | input => exact hn.quiet
  | output => exact hn.quiet
  | mux => exact hn.quiet
  | shl k => exact quiet_append (by intro d hd; revert d; decide) (nat_quiet k)
  | shr k => exact quiet_append (by intro d hd; revert d; decide) (nat_quiet k)
  | other => exact hn.quiet
  | operator =>
    rename_i h
    simp only [List.mem_cons, Prod.mk.injEq, List.not_mem_nil, or_false] at h
    rcases h with h | h | h | h | h | h | h | h | h | h | h | h | h | h | h <;> (rw [h.2]; intro d hd; revert d; decide)

theorem shows_clean {w : World} {ν : Nat → String} {nodes : List Nat} {b : List Stmt} (h : Shows w ν nodes b)
    (hsrc : ∀ n ∈ nodes, ∀ s ∈ (w.view n).srcs, s ∈ nodes) (hw : ∀ n ∈ nodes, Wordlike (ν n)) : ∀ s ∈ b, Clean s := by
  intro s hs
  rcases shows_mem h hs with ⟨n, hn, _, _, rfl, hd⟩ | ⟨n, hn, a, ha, i, rfl⟩
  · exact ⟨hw n hn, drawn_shape hd, drawn_label (hw n hn) hd⟩
  · exact ⟨hw a (hsrc n hn a ha), hw n hn, nat_quiet i⟩

theorem meaning_conv {s : Stmt} (h : ∀ x ∈ Names.of s, isKeyword x = false) : meaning s = some (conv s) := by
  cases s with
  | elem name shape label => simp [meaning, conv, h name.toList (by simp [Names.of])]
  | conn src trg label => simp [meaning, conv, h src.toList (by simp [Names.of]), h trg.toList (by simp [Names.of])]

theorem mapM_meaning : ∀ {b : List Stmt}, (∀ s ∈ b, ∀ x ∈ Names.of s, isKeyword x = false) → b.mapM meaning = some (b.map conv)
  | [], _ => rfl
  | s :: b, h => by
    rw [List.mapM_cons, meaning_conv (h s (List.mem_cons_self ..)), mapM_meaning fun x hx => h x (List.mem_cons_of_mem _ hx)]
    rfl

theorem mapM_none {α β : Type} {f : α → Option β} {l : List α} {a : α} (h : a ∈ l) (e : f a = none) : l.mapM f = none := by
  induction l with
  | nil => cases h
  | cons x l ih =>
    rw [List.mapM_cons]
    rcases List.mem_cons.mp h with rfl | h
    · rw [e]; rfl
    · cases f x with
      | none => rfl
      | some y => rw [ih h]; rfl

/-- **C88.**  For every kernel built through the API with nothing left open and accepted by the check, every enumeration of its nodes, every time stamp and
every name of the kernel: if the names of the kernel and of the ports are words not reserved by DOT, those of the ports are distinct and none of them is
`node` followed by a number, then the text of the DOT output, read as DOT, is a directed graph with the name of the kernel that shows exactly the kernel. -/
theorem dot_reads_partial {F : FloatOps} {w : World} {g : KGraph} (h : Hist F WellUsed World.init w) (only : w.stack = [g])
    (check : w.check g = true) {nodes : List Nat} (hp : nodes.Perm g.nodes) {kernel time : String} (hk : Usable kernel) (ht : '\n' ∉ time.toList)
    (hn : NamesUsable w g.nodes) :
    ∃ (ν : Nat → String) (ss : List DotStmt), Spec.read (dotText w kernel time nodes).toList = some (kernel.toList, ss) ∧
      PictureOf w ν nodes (Spec.picture ss) ∧ ∀ n ∈ g.nodes, (w.node n).name ≠ "" → ν n = (w.node n).name := by
  obtain ⟨ν, h1, h2, h3, h4, h5, h6⟩ := dot_draws_the_kernel h only check hp
  have hmem : ∀ n, n ∈ nodes ↔ n ∈ g.nodes := fun n => hp.mem_iff
  have hu : ∀ n ∈ nodes, Usable (ν n) := by
    intro n hm
    have hg := (hmem n).mp hm
    by_cases he : (w.node n).name = ""
    · exact invented_usable (h4 n hg he)
    · rw [h3 n hg he]
      exact hn.usable n hg he
  have hsrc : ∀ n ∈ nodes, ∀ s ∈ (w.view n).srcs, s ∈ nodes := fun n hm s hs => (hmem s).mpr (h2 n ((hmem n).mp hm) s hs)
  have hnd : nodes.Nodup := by
    have hi := (wellUsed_hist h).1
    exact hp.nodup_iff.mpr (hi.st.nodes g (by rw [only]; exact List.mem_singleton.mpr rfl))
  have hinj : ∀ n ∈ nodes, ∀ m ∈ nodes, ν n = ν m → n = m := fun n hm m hm' e =>
    h6 hn.distinct hn.free n ((hmem n).mp hm) m ((hmem m).mp hm') e
  refine ⟨ν, (dotStmts w nodes).map conv, ?_, shows_picture h1 hsrc hnd hinj, h3⟩
  unfold dotText
  rw [read_text hk.1 ht (shows_clean h1 hsrc fun n hm => (hu n hm).1), if_neg (by rw [hk.2]; decide), mapM_meaning]
  · rfl
  · intro s hs x hx
    rcases shows_mem h1 hs with ⟨n, hn, _, _, rfl, -⟩ | ⟨n, hn, a, ha, i, rfl⟩
    · simp only [Names.of, List.mem_singleton] at hx
      subst hx
      exact (hu n hn).2
    · simp only [Names.of, List.mem_cons, List.not_mem_nil, or_false] at hx
      rcases hx with rfl | rfl
      · exact (hu a (hsrc n hn a ha)).2
      · exact (hu n hn).2

/-- **Reserved names.**  Nothing stops a port (or the kernel) from having a name DOT reserves; then the file is not DOT at all, as soon as an arrow begins
or ends there. -/
theorem dot_reserved {F : FloatOps} {w : World} {g : KGraph} (h : Hist F WellUsed World.init w) (only : w.stack = [g])
    (check : w.check g = true) {nodes : List Nat} (hp : nodes.Perm g.nodes) {kernel time : String} (hk : Wordlike kernel) (ht : '\n' ∉ time.toList)
    (hn : ∀ n ∈ g.nodes, (w.node n).name ≠ "" → Wordlike (w.node n).name)
    (hr : isKeyword kernel.toList = true ∨
      ∃ n ∈ g.nodes, ∃ s ∈ (w.view n).srcs, isKeyword (w.node n).name.toList = true ∨ isKeyword (w.node s).name.toList = true) :
    Spec.read (dotText w kernel time nodes).toList = none := by
  obtain ⟨ν, h1, h2, h3, h4, -, -⟩ := dot_draws_the_kernel h only check hp
  have hmem : ∀ n, n ∈ nodes ↔ n ∈ g.nodes := fun n => hp.mem_iff
  have hsrc : ∀ n ∈ nodes, ∀ s ∈ (w.view n).srcs, s ∈ nodes := fun n hm s hs => (hmem s).mpr (h2 n ((hmem n).mp hm) s hs)
  have hw : ∀ n ∈ nodes, Wordlike (ν n) := by
    intro n hm
    have hg := (hmem n).mp hm
    by_cases he : (w.node n).name = ""
    · exact invented_wordlike (h4 n hg he)
    · rw [h3 n hg he]
      exact hn n hg he
  unfold dotText
  rw [read_text hk ht (shows_clean h1 hsrc hw)]
  split
  · rfl
  · rename_i hkk
    rcases hr with hr | ⟨n, hg, s, hs, hr⟩
    · exact absurd hr hkk
    · have hconn : ∀ {l : List Nat} {b : List Stmt}, Shows w ν l b → n ∈ l → ∃ i : Nat, Stmt.conn (ν s) (ν n) (toString i) ∈ b := by
        intro l b hsh hm
        induction hsh with
        | nil => cases hm
        | @cons m ns shape label rest _ _ ih =>
          rcases List.mem_cons.mp hm with rfl | hm
          · obtain ⟨i, hi, e⟩ := List.getElem_of_mem hs
            refine ⟨i, List.mem_cons_of_mem _ (List.mem_append_left _ ?_)⟩
            unfold arrows
            exact List.mem_mapIdx.mpr ⟨i, hi, by rw [e]⟩
          · obtain ⟨i, hi⟩ := ih hm
            exact ⟨i, List.mem_cons_of_mem _ (List.mem_append_right _ hi)⟩
      obtain ⟨i, hi⟩ := hconn h1 ((hmem n).mpr hg)
      have kw : ∀ m ∈ g.nodes, isKeyword (w.node m).name.toList = true → isKeyword (ν m).toList = true := by
        intro m hm hkm
        have hne : (w.node m).name ≠ "" := by
          intro e; rw [e] at hkm; exact absurd hkm (by decide)
        rw [h3 m hm hne]; exact hkm
      rw [mapM_none hi]
      · rfl
      · show (if _ then _ else _) = none
        rw [if_neg]
        rintro ⟨e1, e2⟩
        rcases hr with hr | hr
        · rw [kw n hg hr] at e2; cases e2
        · rw [kw s (h2 n hg s hs) hr] at e1; cases e1

/-- C88 of the file the tool writes. -/
theorem delivered_dot_reads_partial {C : Type} {F : FloatOps} {w : World} {g : KGraph} {E : Whole.Env C} {name : String} {is : List Cli.Spec.Item}
    {fs fs' : Driver.Files} {cells : Nat → Flow.Cell} {size code : Nat} (hd : Whole.Delivered E name w g is fs cells size code fs') (hE : E.Fair w g)
    (h : Hist F WellUsed World.init w) (only : w.stack = [g]) (check : w.check g = true) (hk : Usable name) (ht : '\n' ∉ E.time.toList)
    (hn : NamesUsable w g.nodes) {v : Option String} (hv : Cli.Spec.Item.out .DOT v ∈ is) :
    ∃ (text : String) (ν : Nat → String) (ss : List DotStmt), fs' (v.getD (Cli.Spec.outDefault .DOT)) = some text ∧
      Spec.read text.toList = some (name.toList, ss) ∧ PictureOf w ν (E.dotNodes w g) (Spec.picture ss) ∧
      ∀ n ∈ g.nodes, (w.node n).name ≠ "" → ν n = (w.node n).name := by
  obtain ⟨ν, ss, h1, h2, h3⟩ := dot_reads_partial h only check hE.dot hk ht hn
  exact ⟨_, ν, ss, hd.dot v hv, h1, h2, h3⟩

end Verif.Dot
