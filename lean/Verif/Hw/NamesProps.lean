import Verif.Hw.Names
/- Properties C37, C38, C41 (dispatch). -/
namespace Verif.Hw

/-! ### Names as sequences of tokens -/

/-- Every token preceded by an underscore. -/
def flatU (ts : List (List Char)) : List Char := ts.flatMap (fun t => '_' :: t)

theorem flatU_cons (t : List Char) (ts : List (List Char)) : flatU (t :: ts) = '_' :: (t ++ flatU ts) := rfl

theorem flatU_append (ts us : List (List Char)) : flatU (ts ++ us) = flatU ts ++ flatU us := by
  simp [flatU, List.flatMap_append]

theorem split_underscore : ∀ (t u : List Char) (x y : List Char), '_' ∉ t → '_' ∉ u → (x = [] ∨ ∃ x', x = '_' :: x') →
    (y = [] ∨ ∃ y', y = '_' :: y') → t ++ x = u ++ y → t = u ∧ x = y := by
  intro t
  induction t with
  | nil =>
    intro u x y _ hu hx hy h
    cases u with
    | nil => exact ⟨rfl, h⟩
    | cons c u =>
      exfalso
      simp only [List.nil_append] at h
      rcases hx with rfl | ⟨x', rfl⟩
      · simp at h
      · simp at h; exact hu (by simp [← h.1])
  | cons c t ih =>
    intro u x y ht hu hx hy h
    cases u with
    | nil =>
      exfalso
      simp only [List.nil_append] at h
      rcases hy with rfl | ⟨y', rfl⟩
      · simp at h
      · simp at h; exact ht (by simp [h.1])
    | cons d u =>
      simp only [List.cons_append, List.cons.injEq] at h
      obtain ⟨h1, h2⟩ := h
      obtain ⟨e1, e2⟩ := ih u x y (fun hm => ht (by simp [hm])) (fun hm => hu (by simp [hm])) hx hy h2
      exact ⟨by rw [h1, e1], e2⟩

theorem flatU_shape (ts : List (List Char)) : flatU ts = [] ∨ ∃ x, flatU ts = '_' :: x := by
  cases ts with
  | nil => exact .inl rfl
  | cons t ts => exact .inr ⟨_, flatU_cons t ts⟩

theorem flatU_inj : ∀ (ts us : List (List Char)), (∀ t ∈ ts, '_' ∉ t) → (∀ u ∈ us, '_' ∉ u) → flatU ts = flatU us →
    ts = us := by
  intro ts
  induction ts with
  | nil =>
    intro us _ _ h
    cases us with
    | nil => rfl
    | cons u us => rw [flatU_cons] at h; cases h
  | cons t ts ih =>
    intro us ht hu h
    cases us with
    | nil => rw [flatU_cons] at h; cases h
    | cons u us =>
      rw [flatU_cons, flatU_cons, List.cons.injEq] at h
      obtain ⟨e1, e2⟩ := split_underscore t u _ _ (ht t (by simp)) (hu u (by simp)) (flatU_shape ts) (flatU_shape us) h.2
      rw [e1, ih us (fun t h => ht t (by simp [h])) (fun u h => hu u (by simp [h])) e2]

theorem dec_inj {m n : Nat} (h : dec m = dec n) : m = n := by
  have := congrArg (fun l => Nat.ofDigitChars 10 l 0) h
  simpa [dec, Nat.ofDigitChars_ten_toDigits] using this

theorem dec_no_underscore (n : Nat) : '_' ∉ dec n := Nat.underscore_not_in_toDigits

theorem dec_ne_nil (n : Nat) : dec n ≠ [] := Nat.toDigits_ne_nil

/-- Tokens of a signature. -/
def sigToks : Ty → List (List Char)
  | .fixed s i f => [['f', 'i', 'x'], dec (if s then 1 else 0), dec i, dec f]
  | .float e f => [['f', 'l', 't'], dec e, dec f]
  | .bits n => [['b', 'i', 't', 's'], dec n]

theorem signature_toks (t : Ty) : '_' :: signature t = flatU (sigToks t) := by
  cases t <;> simp [signature, sigToks, flatU]

/-- Tokens of a module name. -/
def nameToks : HwOp → List (List Char)
  | .unit k ins out l =>
    [[], k.text] ++ ins.flatMap (fun t => ['I', 'N'] :: sigToks t) ++ (['O', 'U', 'T'] :: sigToks out) ++ [dec (posLatency l)]
  | .fifo t l =>
    [[], fifoText, ['I', 'N'], dec (convertType t).width, ['O', 'U', 'T'], dec (convertType t).width, dec (posLatency l)]

theorem ins_toks (ins : List Ty) : ins.flatMap (fun t => ['_', 'I', 'N', '_'] ++ signature t) =
    flatU (ins.flatMap (fun t => ['I', 'N'] :: sigToks t)) := by
  induction ins with
  | nil => rfl
  | cons t ins ih =>
    rw [List.flatMap_cons, List.flatMap_cons, flatU_append, ih, flatU_cons, ← signature_toks]
    simp

theorem name_toks (op : HwOp) : constructModuleName op = flatU (nameToks op) := by
  cases op with
  | unit k ins out l =>
    simp only [constructModuleName, nameToks, flatU_append, ins_toks]
    rw [flatU_cons ['O', 'U', 'T'], ← signature_toks]
    simp [flatU, base]
  | fifo t l =>
    simp [constructModuleName, nameToks, flatU, base]

theorem text_no_underscore (k : UnitKind) : '_' ∉ k.text := by cases k <;> decide

theorem sigToks_no_underscore (t : Ty) : ∀ x ∈ sigToks t, '_' ∉ x := by
  intro x hx
  cases t <;> simp only [sigToks, List.mem_cons, List.not_mem_nil, or_false] at hx
  · rcases hx with rfl | rfl | rfl | rfl
    · decide
    all_goals exact dec_no_underscore _
  · rcases hx with rfl | rfl | rfl
    · decide
    all_goals exact dec_no_underscore _
  · rcases hx with rfl | rfl
    · decide
    all_goals exact dec_no_underscore _

theorem nameToks_no_underscore (op : HwOp) : ∀ x ∈ nameToks op, '_' ∉ x := by
  intro x hx
  cases op with
  | unit k ins out l =>
    simp only [nameToks, List.mem_append, List.mem_cons, List.not_mem_nil, or_false, List.mem_flatMap] at hx
    rcases hx with (((rfl | rfl) | ⟨t, _, rfl | hx⟩) | (rfl | hx)) | rfl
    · simp
    · exact text_no_underscore k
    · decide
    · exact sigToks_no_underscore t x hx
    · decide
    · exact sigToks_no_underscore out x hx
    · exact dec_no_underscore _
  | fifo t l =>
    simp only [nameToks, List.mem_cons, List.not_mem_nil, or_false] at hx
    rcases hx with rfl | rfl | rfl | rfl | rfl | rfl | rfl
    · simp
    · decide
    · decide
    · exact dec_no_underscore _
    · decide
    · exact dec_no_underscore _
    · exact dec_no_underscore _

/-- Signatures are self-delimiting token sequences. -/
theorem sigToks_prefix {t u : Ty} {x y : List (List Char)} (h : sigToks t ++ x = sigToks u ++ y) : t = u ∧ x = y := by
  cases t <;> cases u <;> simp only [sigToks, List.cons_append, List.nil_append, List.cons.injEq] at h
  · obtain ⟨_, h1, h2, h3, h4⟩ := h
    have e1 := dec_inj h1
    have e2 := dec_inj h2
    have e3 := dec_inj h3
    refine ⟨?_, h4⟩
    have e0 : ∀ s s' : Bool, (if s = true then 1 else 0) = (if s' = true then 1 else 0) → s = s' := by decide
    rw [e0 _ _ e1, e2, e3]
  · exact absurd h.1 (by decide)
  · exact absurd h.1 (by decide)
  · exact absurd h.1 (by decide)
  · obtain ⟨_, h1, h2, h3⟩ := h
    exact ⟨by rw [dec_inj h1, dec_inj h2], h3⟩
  · exact absurd h.1 (by decide)
  · exact absurd h.1 (by decide)
  · exact absurd h.1 (by decide)
  · obtain ⟨_, h1, h2⟩ := h
    exact ⟨by rw [dec_inj h1], h2⟩

theorem ins_prefix : ∀ (ins ins' : List Ty) (x y : List (List Char)),
    ins.flatMap (fun t => ['I', 'N'] :: sigToks t) ++ (['O', 'U', 'T'] :: x) =
    ins'.flatMap (fun t => ['I', 'N'] :: sigToks t) ++ (['O', 'U', 'T'] :: y) → ins = ins' ∧ x = y := by
  intro ins
  induction ins with
  | nil =>
    intro ins' x y h
    cases ins' with
    | nil => simp at h; exact ⟨rfl, h⟩
    | cons t ins' =>
      simp only [List.flatMap_nil, List.nil_append, List.flatMap_cons, List.cons_append, List.cons.injEq] at h
      exact absurd h.1 (by decide)
  | cons t ins ih =>
    intro ins' x y h
    cases ins' with
    | nil =>
      simp only [List.flatMap_nil, List.nil_append, List.flatMap_cons, List.cons_append, List.cons.injEq] at h
      exact absurd h.1 (by decide)
    | cons u ins' =>
      simp only [List.flatMap_cons, List.cons_append, List.append_assoc, List.cons.injEq, true_and] at h
      obtain ⟨e1, e2⟩ := sigToks_prefix h
      obtain ⟨e3, e4⟩ := ih ins' x y e2
      exact ⟨by rw [e1, e3], e4⟩

/-! ### C37 -/

/-- Latency attributes agree when they are equal or both unset (negative, which counts as 0). -/
theorem posLatency_eq (l : Int) : (posLatency l : Int) = max l 0 := by
  unfold posLatency
  split <;> omega

/-- **C37.**  Two units have the same module name only if they agree on the operation, on the operand types, on the
result type and on the latency; and no unit shares a name with a buffer. -/
theorem unit_names_injective (k k' : UnitKind) (ins ins' : List Ty) (out out' : Ty) (l l' : Int)
    (h : constructModuleName (.unit k ins out l) = constructModuleName (.unit k' ins' out' l')) :
    k = k' ∧ ins = ins' ∧ out = out' ∧ max l 0 = max l' 0 := by
  rw [name_toks, name_toks] at h
  have h := flatU_inj _ _ (nameToks_no_underscore _) (nameToks_no_underscore _) h
  simp only [nameToks, List.cons_append, List.nil_append, List.append_assoc, List.cons.injEq, true_and] at h
  obtain ⟨h1, h2⟩ := h
  have hk : k = k' := by cases k <;> cases k' <;> first | rfl | exact absurd h1 (by decide)
  obtain ⟨h3, h4⟩ := ins_prefix _ _ _ _ h2
  obtain ⟨h5, h6⟩ := sigToks_prefix h4
  simp only [List.cons.injEq, and_true] at h6
  exact ⟨hk, h3, h5, by rw [← posLatency_eq, ← posLatency_eq, dec_inj h6]⟩

theorem unit_fifo_names_differ (k : UnitKind) (ins : List Ty) (out t : Ty) (l l' : Int) :
    constructModuleName (.unit k ins out l) ≠ constructModuleName (.fifo t l') := by
  intro h
  rw [name_toks, name_toks] at h
  have h := flatU_inj _ _ (nameToks_no_underscore _) (nameToks_no_underscore _) h
  simp only [nameToks, List.cons_append, List.nil_append, List.append_assoc, List.cons.injEq, true_and] at h
  have h1 := h.1
  cases k <;> exact absurd h1 (by decide)

theorem find_name {c : List Module} {op : HwOp} {m : Module}
    (h : c.find? (fun m => m.name = constructModuleName op) = some m) : m ∈ c ∧ m.name = constructModuleName op :=
  ⟨List.mem_of_find?_eq_some h, by simpa using List.find?_some h⟩

theorem convertAll_aux : ∀ (ops : List HwOp) (c : List Module), (∀ m ∈ c, ∃ op, m = createModule op) →
    (convertAll c ops).2.length = ops.length ∧
    ∀ i (hi : i < ops.length), ∃ op', (convertAll c ops).2[i]? = some (createModule op') ∧
      constructModuleName op' = constructModuleName ops[i] := by
  intro ops
  induction ops with
  | nil => intro c _; exact ⟨rfl, fun i hi => by simp at hi⟩
  | cons op ops ih =>
    intro c hc
    have hname : ∀ op, (createModule op).name = constructModuleName op := by intro op; cases op <;> rfl
    have key : ∃ c' op', findOrCreateModule c op = (c', createModule op') ∧
        constructModuleName op' = constructModuleName op ∧ ∀ m ∈ c', ∃ op, m = createModule op := by
      unfold findOrCreateModule
      cases hf : c.find? (fun m => m.name = constructModuleName op) with
      | none =>
        refine ⟨_, op, rfl, rfl, ?_⟩
        intro m hm
        rcases List.mem_cons.1 hm with rfl | hm
        · exact ⟨op, rfl⟩
        · exact hc m hm
      | some m =>
        obtain ⟨h1, h2⟩ := find_name hf
        obtain ⟨op', rfl⟩ := hc m h1
        exact ⟨c, op', rfl, by rw [← h2, hname], hc⟩
    obtain ⟨c', op', h1, h2, h3⟩ := key
    obtain ⟨h4, h5⟩ := ih c' h3
    simp only [convertAll, h1]
    refine ⟨by simp [h4], ?_⟩
    intro i hi
    cases i with
    | zero => exact ⟨op', rfl, h2⟩
    | succ i => exact h5 i (by simpa using hi)

/-- **C37, effect.**  Convert the operations of any kernel in any order, sharing modules by name: every unit becomes an
instance of a module with exactly its own port types and its own latency, whatever was converted before. -/
theorem units_get_their_own_ports (ops : List HwOp) (i : Nat) (hi : i < ops.length) (k : UnitKind) (ins : List Ty) (out : Ty)
    (l : Int) (h : ops[i] = .unit k ins out l) :
    ∃ m, (convertAll [] ops).2[i]? = some m ∧ m.res = convertType out ∧ m.args = ins.map convertType ∧
      (m.latency : Int) = max l 0 := by
  obtain ⟨_, h2⟩ := convertAll_aux ops [] (by simp)
  obtain ⟨op', h3, h4⟩ := h2 i hi
  rw [h] at h4
  refine ⟨_, h3, ?_⟩
  cases op' with
  | unit k' ins' out' l' =>
    obtain ⟨_, rfl, rfl, h5⟩ := unit_names_injective _ _ _ _ _ _ _ _ h4
    exact ⟨rfl, rfl, by rw [← h5]; exact posLatency_eq _⟩
  | fifo t l' => exact absurd h4.symm (unit_fifo_names_differ _ _ _ _ _ _)

/-- Non-vacuity of C37: two additions of different signedness get two modules, a repeated one is shared. -/
example : (convertAll [] [.unit .add [.fixed true 7 0, .fixed true 7 0] (.fixed true 7 0) 2,
      .unit .add [.bits 8, .bits 8] (.bits 8) 2, .unit .add [.fixed true 7 0, .fixed true 7 0] (.fixed true 7 0) 2]).1.length = 2 := by
  decide

/-! ### C38 -/

/-- C38, the part that holds: two buffers share a module only if they have the same width and the same depth. -/
theorem fifo_names_width_depth_partial (t t' : Ty) (l l' : Int)
    (h : constructModuleName (.fifo t l) = constructModuleName (.fifo t' l')) :
    (convertType t).width = (convertType t').width ∧ max l 0 = max l' 0 := by
  rw [name_toks, name_toks] at h
  have h := flatU_inj _ _ (nameToks_no_underscore _) (nameToks_no_underscore _) h
  simp only [nameToks, List.cons.injEq, true_and, and_true] at h
  exact ⟨dec_inj h.1, by rw [← posLatency_eq, ← posLatency_eq, dec_inj h.2.2]⟩

/-- **C38 fails** (finding).  Whenever a kernel buffers a signed and an unsigned value of the same width for the same
number of cycles -- for every such pair of types -- the buffer converted second is made an instance of a module whose
ports have the other signedness. -/
theorem fifo_shared_across_signedness (i f n : Nat) (l : Int) (h : n = 1 + i + f) :
    convertAll [] [.fifo (.fixed true i f) l, .fifo (.bits n) l] =
      ([createModule (.fifo (.fixed true i f) l)],
        [createModule (.fifo (.fixed true i f) l), createModule (.fifo (.fixed true i f) l)]) ∧
    (createModule (.fifo (.fixed true i f) l)).args ≠ [convertType (.bits n)] ∧
    (createModule (.fifo (.fixed true i f) l)).res ≠ convertType (.bits n) := by
  subst h
  have hn : constructModuleName (.fifo (.bits (1 + i + f)) l) = constructModuleName (.fifo (.fixed true i f) l) := rfl
  refine ⟨?_, by simp [createModule, convertType], by simp [createModule, convertType]⟩
  simp only [convertAll, findOrCreateModule, List.find?_nil, hn, List.find?_cons]
  simp [createModule]

/-! ### C41 -/

/-- What each operation's module must implement; division and negation have no template. -/
def expectedStub : HwOp → Option Stub
  | .fifo _ _ => some .fifo
  | .unit .cast _ _ _ => some .cast
  | .unit .add _ _ _ => some (.binary .add)
  | .unit .sub _ _ _ => some (.binary .sub)
  | .unit .mul _ _ _ => some (.binary .mul)
  | .unit .less _ _ _ => some (.binary .lt)
  | .unit .lesseq _ _ _ => some (.binary .le)
  | .unit .greater _ _ _ => some (.binary .gt)
  | .unit .greatereq _ _ _ => some (.binary .ge)
  | .unit .eq _ _ _ => some (.binary .eq)
  | .unit .neq _ _ _ => some (.binary .ne)
  | .unit .div _ _ _ => none
  | .unit .neg _ _ _ => none

/-- No occurrence of `__text` inside underscore-free nonempty tokens. -/
theorem contains_toks (text : List Char) (hu : '_' ∉ text) (hne : text ≠ []) :
    ∀ (ts : List (List Char)), (∀ t ∈ ts, '_' ∉ t) → (∀ t ∈ ts, t ≠ []) → contains (flatU ts) (base text) = false := by
  -- inside a token the pattern cannot start, as it begins with an underscore
  have hin : ∀ (t s : List Char), '_' ∉ t → contains (t ++ s) (base text) = contains s (base text) := by
    intro t
    induction t with
    | nil => intro s _; rfl
    | cons c t ih =>
      intro s h
      have hc : ('_' == c) = false := by
        rw [beq_eq_false_iff_ne]; intro he; exact h (by simp [← he])
      rw [List.cons_append, contains]
      rw [ih s (fun hm => h (by simp [hm]))]
      simp [base, List.isPrefixOf, hc]
  intro ts
  induction ts with
  | nil => intro _ _; rfl
  | cons t ts ih =>
    intro h1 h2
    rw [flatU_cons, contains, hin t _ (h1 t (by simp)), ih (fun u hu => h1 u (by simp [hu])) (fun u hu => h2 u (by simp [hu]))]
    cases t with
    | nil => exact absurd rfl (h2 [] (by simp))
    | cons c t =>
      have hc : ('_' == c) = false := by
        rw [beq_eq_false_iff_ne]; intro he; exact h1 (c :: t) (by simp) (by simp [← he])
      simp [base, List.isPrefixOf, hc]

theorem isPrefixOf_tok : ∀ (p t s : List Char), '_' ∉ p → (s = [] ∨ ∃ x, s = '_' :: x) →
    p.isPrefixOf (t ++ s) = p.isPrefixOf t := by
  intro p
  induction p with
  | nil => intro t s _ _; simp
  | cons c p ih =>
    intro t s hp hs
    cases t with
    | nil =>
      have hc : (c == '_') = false := by
        rw [beq_eq_false_iff_ne]; intro he; exact hp (by simp [he])
      rcases hs with rfl | ⟨x, rfl⟩
      · rfl
      · simp [List.isPrefixOf, hc]
    | cons d t =>
      simp only [List.cons_append, List.isPrefixOf]
      rw [ih t s (fun hm => hp (by simp [hm])) hs]

/-- In a name made of `__K` and further nonempty tokens, `__text` occurs exactly when `text` is a prefix of `K`. -/
theorem contains_name (text k : List Char) (ts : List (List Char)) (hu : '_' ∉ text) (hne : text ≠ []) (hk : '_' ∉ k)
    (hk0 : k ≠ []) (h1 : ∀ t ∈ ts, '_' ∉ t) (h2 : ∀ t ∈ ts, t ≠ []) :
    contains (flatU ([] :: k :: ts)) (base text) = text.isPrefixOf k := by
  have h3 := contains_toks text hu hne (k :: ts) (by simpa using ⟨hk, h1⟩) (by simpa using ⟨hk0, h2⟩)
  rw [flatU_cons, List.nil_append, contains, h3, Bool.or_false, flatU_cons]
  simp only [base, List.isPrefixOf, beq_self_eq_true, Bool.true_and]
  exact isPrefixOf_tok text k _ hu (flatU_shape ts)

theorem contains_op (text : List Char) (hu : '_' ∉ text) (hne : text ≠ []) (op : HwOp) :
    contains (constructModuleName op) (base text) =
      text.isPrefixOf (match op with | .unit k _ _ _ => k.text | .fifo _ _ => fifoText) := by
  rw [name_toks]
  have hall := nameToks_no_underscore op
  have hsig : ∀ t, ∀ x ∈ sigToks t, x ≠ [] := by
    intro t x hx
    cases t <;> simp only [sigToks, List.mem_cons, List.not_mem_nil, or_false] at hx
    · rcases hx with rfl | rfl | rfl | rfl
      · decide
      all_goals exact dec_ne_nil _
    · rcases hx with rfl | rfl | rfl
      · decide
      all_goals exact dec_ne_nil _
    · rcases hx with rfl | rfl
      · decide
      all_goals exact dec_ne_nil _
  cases op with
  | unit k ins out l =>
    simp only [nameToks, List.cons_append, List.nil_append] at hall ⊢
    apply contains_name text k.text _ hu hne (text_no_underscore k) (by cases k <;> decide)
    · intro t ht; exact hall t (by simp only [List.mem_cons]; exact .inr (.inr ht))
    · intro x hx
      simp only [List.mem_append, List.mem_cons, List.not_mem_nil, or_false, List.mem_flatMap] at hx
      rcases hx with (⟨t, _, rfl | hx⟩ | (rfl | hx)) | rfl
      · decide
      · exact hsig t x hx
      · decide
      · exact hsig out x hx
      · exact dec_ne_nil _
  | fifo t l =>
    simp only [nameToks] at hall ⊢
    apply contains_name text fifoText _ hu hne (by decide) (by decide)
    · intro t ht; exact hall t (by simp only [List.mem_cons]; exact .inr (.inr (by simpa using ht)))
    · intro x hx
      simp only [List.mem_cons, List.not_mem_nil, or_false] at hx
      rcases hx with rfl | rfl | rfl | rfl | rfl
      · decide
      · exact dec_ne_nil _
      · decide
      · exact dec_ne_nil _
      · exact dec_ne_nil _

/-- **C41, selection.**  For every operation, whatever its types and latency, the module generated under its name is the
one made for it: `__LESSEQ...` is not taken for `__LESS...`, `__NEQ...` not for `__EQ...`; modules for division and
negation are not generated. -/
theorem stub_selection (op : HwOp) : stubOf (constructModuleName op) = expectedStub op := by
  unfold stubOf
  rw [contains_op fifoText (by decide) (by decide) op, contains_op UnitKind.cast.text (by decide) (by decide) op,
    contains_op UnitKind.add.text (by decide) (by decide) op, contains_op UnitKind.sub.text (by decide) (by decide) op,
    contains_op UnitKind.mul.text (by decide) (by decide) op, contains_op UnitKind.lesseq.text (by decide) (by decide) op,
    contains_op UnitKind.greatereq.text (by decide) (by decide) op, contains_op UnitKind.less.text (by decide) (by decide) op,
    contains_op UnitKind.greater.text (by decide) (by decide) op, contains_op UnitKind.eq.text (by decide) (by decide) op,
    contains_op UnitKind.neq.text (by decide) (by decide) op, contains_op andText (by decide) (by decide) op,
    contains_op orText (by decide) (by decide) op, contains_op xorText (by decide) (by decide) op]
  cases op with
  | unit k ins out l => cases k <;> rfl
  | fifo t l => rfl

end Verif.Hw
