import Verif.Json.Num
/-
C89: the parser accepts exactly the JSON texts and returns the value they denote.
-/
namespace Verif.Json

/-! ### Tokens -/

/-- What a token says about the text it was read from. -/
def Reads : Token → Bytes → Bytes → Prop
  | .beginArray, s, r => s = 91 :: r
  | .endArray, s, r => s = 93 :: r
  | .beginObject, s, r => s = 123 :: r
  | .endObject, s, r => s = 125 :: r
  | .nameSep, s, r => s = 58 :: r
  | .valueSep, s, r => s = 44 :: r
  | .litTrue, s, r => s = [116, 114, 117, 101] ++ r
  | .litFalse, s, r => s = [102, 97, 108, 115, 101] ++ r
  | .litNull, s, r => s = [110, 117, 108, 108] ++ r
  | .str x, s, r => ∃ t cs, StrText t cs ∧ x = cs.flatMap utf8 ∧ s = 34 :: (t ++ 34 :: r)
  | .unsigned k, s, r => ∃ n : NumLit, n.Ok ∧ n.val = .unsigned k ∧ s = n.text ++ r
  | .integer z, s, r => ∃ n : NumLit, n.Ok ∧ n.val = .integer z ∧ s = n.text ++ r
  | .float x, s, r => ∃ n : NumLit, n.Ok ∧ n.val = .float x ∧ s = n.text ++ r
  | .eoi, s, r => (s = [] ∧ r = []) ∨ s = 0 :: r
  | .error, _, _ => True

theorem val_cases (n : NumLit) : (∃ k, n.val = .unsigned k) ∨ (∃ z, n.val = .integer z) ∨ n.val = .float n.text := by
  unfold NumLit.val
  split
  · split
    · exact .inl ⟨_, rfl⟩
    · split
      · exact .inr (.inl ⟨_, rfl⟩)
      · exact .inr (.inr rfl)
  · exact .inr (.inr rfl)

theorem Shown.reads {t : Token} {s r : Bytes} (h : Shown t s r) : Reads t s r := by
  cases h with
  | struct h =>
    simp only [List.mem_cons, Prod.mk.injEq, List.not_mem_nil, or_false] at h
    rcases h with ⟨rfl, rfl⟩ | ⟨rfl, rfl⟩ | ⟨rfl, rfl⟩ | ⟨rfl, rfl⟩ | ⟨rfl, rfl⟩ | ⟨rfl, rfl⟩ <;> rfl
  | true => rfl
  | false => rfl
  | null => rfl
  | str h => exact ⟨_, _, h, rfl, rfl⟩
  | num h =>
    rename_i n
    rcases val_cases n with ⟨k, e⟩ | ⟨k, e⟩ | e
    · rw [e]; exact ⟨n, h, e, rfl⟩
    · rw [e]; exact ⟨n, h, e, rfl⟩
    · rw [e]; exact ⟨n, h, e, rfl⟩
  | eof => exact .inl ⟨rfl, rfl⟩
  | nul => exact .inr rfl
  | error => trivial

theorem scan_reads (s : Bytes) : ∃ a s', Ws a ∧ s = a ++ s' ∧ Reads (scan s).1 s' (scan s).2 := by
  obtain ⟨a, h1, h2⟩ := skipWs_sound s
  exact ⟨a, skipWs s, h1, h2, (scanToken_sound _).reads⟩

theorem scan_struct {a : Bytes} (ha : Ws a) {c : Nat} (hc : ¬ (c = 32 ∨ c = 9 ∨ c = 10 ∨ c = 13)) (r : Bytes) :
    scan (a ++ c :: r) = scanToken (c :: r) := scan_ws ha hc r

theorem tok91 (r : Bytes) : scanToken (91 :: r) = (.beginArray, r) := rfl
theorem tok93 (r : Bytes) : scanToken (93 :: r) = (.endArray, r) := rfl
theorem tok123 (r : Bytes) : scanToken (123 :: r) = (.beginObject, r) := rfl
theorem tok125 (r : Bytes) : scanToken (125 :: r) = (.endObject, r) := rfl
theorem tok58 (r : Bytes) : scanToken (58 :: r) = (.nameSep, r) := rfl
theorem tok44 (r : Bytes) : scanToken (44 :: r) = (.valueSep, r) := rfl

theorem scanToken_str {t : Bytes} {cs : List Nat} (h : StrText t cs) (r : Bytes) :
    scanToken (34 :: (t ++ 34 :: r)) = (.str (cs.flatMap utf8), r) := by
  have := scanString_complete h r (t ++ 34 :: r).length (by simp)
  show (match scanString (t ++ 34 :: r).length (t ++ 34 :: r) with
      | some (t, r) => (Token.str t, r)
      | none => (Token.error, [])) = _
  rw [this]

theorem ws_nil : Ws [] := by intro c hc; cases hc

theorem sep_ws {b : Bytes} (hb : Ws b) {r : Bytes} (hr : Sep r) : Sep (b ++ r) := by
  intro c s e
  cases b with
  | nil => exact hr c s e
  | cons d b =>
    rw [List.cons_append] at e
    have := hb d (List.mem_cons_self ..)
    rw [(List.cons.inj e).1] at this
    omega

theorem sep_cons {c : Nat} (h : c = 44 ∨ c = 93 ∨ c = 125 ∨ c = 0) (r : Bytes) : Sep (c :: r) := by
  intro d s e
  rw [← (List.cons.inj e).1]
  omega

theorem sep_nil : Sep [] := by intro c s e; cases e

/-- How a value begins. -/
theorem text_begins {fin : Bytes → Bool} {v : Val} {t : Bytes} (h : Text fin v t) :
    ∃ c s, t = c :: s ∧ ¬ (c = 32 ∨ c = 9 ∨ c = 10 ∨ c = 13) ∧ c ≠ 93 ∧ c ≠ 125 ∧ c < 128 := by
  cases h with
  | null => exact ⟨_, _, rfl, by omega, by omega, by omega, by omega⟩
  | true => exact ⟨_, _, rfl, by omega, by omega, by omega, by omega⟩
  | false => exact ⟨_, _, rfl, by omega, by omega, by omega, by omega⟩
  | num n hn _ =>
    obtain ⟨d0, i, hi, hd, _⟩ := num_shape hn
    have hd0 : 48 ≤ d0 ∧ d0 ≤ 57 := hd d0 (List.mem_cons_self ..)
    cases hneg : n.neg with
    | true => exact ⟨45, n.int ++ (fracText n.frac ++ expText n.exp), by unfold NumLit.text; rw [hneg]; simp, by omega, by omega, by omega, by omega⟩
    | false => exact ⟨d0, i ++ (fracText n.frac ++ expText n.exp), by unfold NumLit.text; rw [hneg, hi]; simp, by omega, by omega, by omega, by omega⟩
  | str => exact ⟨_, _, rfl, by omega, by omega, by omega, by omega⟩
  | emptyArr => exact ⟨_, _, rfl, by omega, by omega, by omega, by omega⟩
  | arr => exact ⟨_, _, rfl, by omega, by omega, by omega, by omega⟩
  | emptyObj => exact ⟨_, _, rfl, by omega, by omega, by omega, by omega⟩
  | obj => exact ⟨_, _, rfl, by omega, by omega, by omega, by omega⟩

theorem scan_text {fin : Bytes → Bool} {v : Val} {t : Bytes} (h : Text fin v t) {a : Bytes} (ha : Ws a) (r : Bytes) :
    scan (a ++ t ++ r) = scanToken (t ++ r) := by
  obtain ⟨c, s, rfl, h1, _⟩ := text_begins h
  rw [List.append_assoc, List.cons_append]
  exact scan_ws ha h1 _

theorem loop_next {fin : Bytes → Bool} {s s' : State} (h : step fin s = .next s') (m : Nat) : loop fin (m + 1) s = loop fin m s' := by
  rw [loop, h]

theorem items_begins {fin : Bytes → Bool} {vs : List Val} {t : Bytes} (h : Items fin vs t) (r : Bytes) : (scan (t ++ r)).1 ≠ .endArray := by
  have key : ∀ {v a t'} (r' : Bytes), Ws a → Text fin v t' → (scan (a ++ t' ++ r')).1 ≠ .endArray := by
    intro v a t' r' ha ht e
    rw [scan_text ht ha] at e
    have := (scanToken_sound (t' ++ r')).reads
    rw [e] at this
    obtain ⟨c, s, rfl, _, h2, _⟩ := text_begins ht
    exact h2 (List.cons.inj this).1
  cases h with
  | one ha ht _ => rw [List.append_assoc]; exact key _ ha ht
  | more ha ht _ _ => rw [List.append_assoc, List.append_assoc]; exact key _ ha ht

theorem members_begins {fin : Bytes → Bool} {ms : List (Bytes × Val)} {t : Bytes} (h : Members fin ms t) (r : Bytes) :
    (scan (t ++ r)).1 ≠ .endObject := by
  have key : ∀ {a : Bytes} (x : Bytes), Ws a → (scan (a ++ 34 :: x)).1 ≠ .endObject := by
    intro a x ha e
    rw [scan_ws ha (by omega)] at e
    have := (scanToken_sound (34 :: x)).reads
    rw [e] at this
    exact absurd (List.cons.inj this).1 (by omega)
  cases h with
  | one ha _ _ _ _ _ => rw [List.append_assoc]; exact key _ ha
  | more ha _ _ _ _ _ _ => rw [List.append_assoc]; exact key _ ha

/-! ### Completeness -/

/-- The claim for a value. -/
def DoneA (fin : Bytes → Bool) (v : Val) (t : Bytes) : Prop :=
  ∀ r, Sep r → ∀ frames, ∃ n, n ≤ 2 * t.length ∧
    ∀ m, loop fin (m + n) (.value (scanToken (t ++ r)).1 (scanToken (t ++ r)).2 frames) = loop fin m (.after v r frames)

/-- The claim for the values of an array. -/
def DoneB (fin : Bytes → Bool) (vs : List Val) (t : Bytes) : Prop :=
  ∀ r done fs, ∃ n, n ≤ 2 * t.length + 1 ∧
    ∀ m, loop fin (m + n) (.value (scan (t ++ 93 :: r)).1 (scan (t ++ 93 :: r)).2 (.arr done :: fs)) = loop fin m (.after (.arr (done ++ vs)) r fs)

/-- The claim for the members of an object. -/
def DoneC (fin : Bytes → Bool) (ms : List (Bytes × Val)) (t : Bytes) : Prop :=
  ∀ r fields fs, ∃ s', member fields (scan (t ++ 125 :: r)).1 (scan (t ++ 125 :: r)).2 fs = .next s' ∧
    ∃ n, n ≤ 2 * t.length + 1 ∧ ∀ m, loop fin (m + n) s' = loop fin m (.after (.obj (ms.foldl (fun o m => setField m.1 m.2 o) fields)) r fs)

/-- One step suffices. -/
theorem DoneA.of_step {fin : Bytes → Bool} {v : Val} {t : Bytes} (ht : t ≠ [])
    (h : ∀ r, Sep r → ∀ frames, step fin (.value (scanToken (t ++ r)).1 (scanToken (t ++ r)).2 frames) = .next (.after v r frames)) : DoneA fin v t := by
  intro r hr frames
  refine ⟨1, ?_, fun m => loop_next (h r hr frames) m⟩
  have := List.length_pos_of_ne_nil ht
  omega

theorem doneA_num {fin : Bytes → Bool} {n : NumLit} (hn : n.Ok) (hf : n.val = .float n.text → fin n.text = true) : DoneA fin n.val n.text := by
  refine DoneA.of_step (fun e => ?_) fun r hr frames => ?_
  · obtain ⟨c, s, h, _⟩ := text_begins (Text.num n hn hf)
    rw [e] at h; cases h
  · rw [scanNumber_complete hn hr]
    rcases val_cases n with ⟨k, e⟩ | ⟨k, e⟩ | e
    · rw [e]; rfl
    · rw [e]; rfl
    · have := hf e
      rw [e]
      show (if fin n.text = true then _ else _) = _
      rw [if_pos this]

theorem doneA_arr {fin : Bytes → Bool} {vs : List Val} {t : Bytes} (h : Items fin vs t) (ih : DoneB fin vs t) : DoneA fin (.arr vs) (91 :: (t ++ [93])) := by
  intro r hr frames
  obtain ⟨n, h1, h2⟩ := ih r [] frames
  refine ⟨n + 1, by simp only [List.length_cons, List.length_append, List.length_nil]; omega, fun m => ?_⟩
  have e : (91 :: (t ++ [93])) ++ r = 91 :: (t ++ 93 :: r) := by simp
  rw [e, tok91, ← Nat.add_assoc]
  have hb := items_begins h (93 :: r)
  rw [loop_next (s' := .value (scan (t ++ 93 :: r)).1 (scan (t ++ 93 :: r)).2 (.arr [] :: frames))]
  · rw [h2]; rfl
  · show (match scan (t ++ 93 :: r) with
      | (.endArray, r) => Outcome.next (.after (.arr []) r frames)
      | (t, r) => Outcome.next (.value t r (.arr [] :: frames))) = _
    split
    · rename_i e; rw [e] at hb; exact absurd rfl hb
    · rename_i e; rw [e]

theorem doneA_obj {fin : Bytes → Bool} {ms : List (Bytes × Val)} {t : Bytes} (h : Members fin ms t) (ih : DoneC fin ms t) :
    DoneA fin (.obj (object ms)) (123 :: (t ++ [125])) := by
  intro r hr frames
  obtain ⟨s', h0, n, h1, h2⟩ := ih r [] frames
  refine ⟨n + 1, by simp only [List.length_cons, List.length_append, List.length_nil]; omega, fun m => ?_⟩
  have e : (123 :: (t ++ [125])) ++ r = 123 :: (t ++ 125 :: r) := by simp
  rw [e, tok123, ← Nat.add_assoc]
  have hb := members_begins h (125 :: r)
  rw [loop_next (s' := s')]
  · rw [h2]; rfl
  · show (match scan (t ++ 125 :: r) with
      | (.endObject, r) => Outcome.next (.after (.obj []) r frames)
      | (t, r) => member [] t r frames) = _
    split
    · rename_i e; rw [e] at hb; exact absurd rfl hb
    · rename_i e; rw [e] at h0; exact h0

theorem doneB_one {fin : Bytes → Bool} {v : Val} {a t b : Bytes} (ha : Ws a) (ht : Text fin v t) (hb : Ws b) (ih : DoneA fin v t) :
    DoneB fin [v] (a ++ t ++ b) := by
  intro r done fs
  obtain ⟨n, h1, h2⟩ := ih (b ++ 93 :: r) (sep_ws hb (sep_cons (by omega) r)) (.arr done :: fs)
  refine ⟨n + 1, by simp only [List.length_append]; omega, fun m => ?_⟩
  have e : a ++ t ++ b ++ 93 :: r = a ++ t ++ (b ++ 93 :: r) := by simp
  rw [e, scan_text ht ha, show m + (n + 1) = (m + 1) + n by omega, h2]
  refine loop_next ?_ m
  simp only [step]
  rw [scan_ws hb (by omega), tok93]

theorem doneB_more {fin : Bytes → Bool} {v : Val} {vs : List Val} {a t b u : Bytes} (ha : Ws a) (ht : Text fin v t) (hb : Ws b)
    (ih : DoneA fin v t) (ih' : DoneB fin vs u) : DoneB fin (v :: vs) (a ++ t ++ b ++ 44 :: u) := by
  intro r done fs
  obtain ⟨n, h1, h2⟩ := ih (b ++ 44 :: (u ++ 93 :: r)) (sep_ws hb (sep_cons (by omega) _)) (.arr done :: fs)
  obtain ⟨n', h1', h2'⟩ := ih' r (done ++ [v]) fs
  refine ⟨n' + 1 + n, by simp only [List.length_append, List.length_cons]; omega, fun m => ?_⟩
  have e : a ++ t ++ b ++ 44 :: u ++ 93 :: r = a ++ t ++ (b ++ 44 :: (u ++ 93 :: r)) := by simp
  rw [e, scan_text ht ha, show m + (n' + 1 + n) = (m + n' + 1) + n by omega, h2]
  rw [loop_next (s' := .value (scan (u ++ 93 :: r)).1 (scan (u ++ 93 :: r)).2 (.arr (done ++ [v]) :: fs)), h2']
  · simp
  · simp only [step]
    rw [scan_ws hb (by omega), tok44]

theorem member_reads {fields : List (Bytes × Val)} {a k b x : Bytes} {cs : List Nat} (ha : Ws a) (hk : StrText k cs) (hb : Ws b) (fs : List Frame) :
    member fields (scan (a ++ 34 :: (k ++ 34 :: (b ++ 58 :: x)))).1 (scan (a ++ 34 :: (k ++ 34 :: (b ++ 58 :: x)))).2 fs =
      .next (.value (scan x).1 (scan x).2 (.obj fields (cs.flatMap utf8) :: fs)) := by
  rw [scan_ws ha (by omega), scanToken_str hk]
  simp only [member]
  rw [scan_ws hb (by omega), tok58]

theorem doneC_one {fin : Bytes → Bool} {v : Val} {cs : List Nat} {a k b c t d : Bytes} (ha : Ws a) (hk : StrText k cs) (hb : Ws b) (hc : Ws c)
    (ht : Text fin v t) (hd : Ws d) (ih : DoneA fin v t) : DoneC fin [(cs.flatMap utf8, v)] (a ++ 34 :: (k ++ 34 :: (b ++ 58 :: (c ++ t ++ d)))) := by
  intro r fields fs
  have e : a ++ 34 :: (k ++ 34 :: (b ++ 58 :: (c ++ t ++ d))) ++ 125 :: r = a ++ 34 :: (k ++ 34 :: (b ++ 58 :: (c ++ t ++ (d ++ 125 :: r)))) := by simp
  rw [e]
  refine ⟨_, member_reads ha hk hb fs, ?_⟩
  obtain ⟨n, h1, h2⟩ := ih (d ++ 125 :: r) (sep_ws hd (sep_cons (by omega) r)) (.obj fields (cs.flatMap utf8) :: fs)
  refine ⟨n + 1, by simp only [List.length_append, List.length_cons]; omega, fun m => ?_⟩
  rw [scan_text ht hc, show m + (n + 1) = (m + 1) + n by omega, h2]
  refine loop_next ?_ m
  simp only [step]
  rw [scan_ws hd (by omega), tok125]
  rfl

theorem doneC_more {fin : Bytes → Bool} {v : Val} {ms : List (Bytes × Val)} {cs : List Nat} {a k b c t d u : Bytes} (ha : Ws a) (hk : StrText k cs)
    (hb : Ws b) (hc : Ws c) (ht : Text fin v t) (hd : Ws d) (ih : DoneA fin v t) (ih' : DoneC fin ms u) :
    DoneC fin ((cs.flatMap utf8, v) :: ms) (a ++ 34 :: (k ++ 34 :: (b ++ 58 :: (c ++ t ++ d ++ 44 :: u)))) := by
  intro r fields fs
  have e : a ++ 34 :: (k ++ 34 :: (b ++ 58 :: (c ++ t ++ d ++ 44 :: u))) ++ 125 :: r =
      a ++ 34 :: (k ++ 34 :: (b ++ 58 :: (c ++ t ++ (d ++ 44 :: (u ++ 125 :: r))))) := by simp
  rw [e]
  refine ⟨_, member_reads ha hk hb fs, ?_⟩
  obtain ⟨n, h1, h2⟩ := ih (d ++ 44 :: (u ++ 125 :: r)) (sep_ws hd (sep_cons (by omega) _)) (.obj fields (cs.flatMap utf8) :: fs)
  obtain ⟨s', h0, n', h1', h2'⟩ := ih' r (setField (cs.flatMap utf8) v fields) fs
  refine ⟨n' + 1 + n, by simp only [List.length_append, List.length_cons]; omega, fun m => ?_⟩
  rw [scan_text ht hc, show m + (n' + 1 + n) = (m + n' + 1) + n by omega, h2]
  rw [loop_next (s' := s'), h2']
  · rfl
  · simp only [step]
    rw [scan_ws hd (by omega), tok44]
    exact h0

theorem doneA_str {fin : Bytes → Bool} {cs : List Nat} {t : Bytes} (h : StrText t cs) : DoneA fin (.str (cs.flatMap utf8)) (34 :: (t ++ [34])) := by
  refine DoneA.of_step (by simp) fun r _ frames => ?_
  have e : (34 :: (t ++ [34])) ++ r = 34 :: (t ++ 34 :: r) := by simp
  rw [e, scanToken_str h]
  rfl

theorem doneA_emptyArr {fin : Bytes → Bool} {w : Bytes} (hw : Ws w) : DoneA fin (.arr []) (91 :: (w ++ [93])) := by
  refine DoneA.of_step (by simp) fun r _ frames => ?_
  have e : (91 :: (w ++ [93])) ++ r = 91 :: (w ++ 93 :: r) := by simp
  rw [e, tok91]
  simp only [step]
  rw [scan_ws hw (by omega), tok93]

theorem doneA_emptyObj {fin : Bytes → Bool} {w : Bytes} (hw : Ws w) : DoneA fin (.obj []) (123 :: (w ++ [125])) := by
  refine DoneA.of_step (by simp) fun r _ frames => ?_
  have e : (123 :: (w ++ [125])) ++ r = 123 :: (w ++ 125 :: r) := by simp
  rw [e, tok123]
  simp only [step]
  rw [scan_ws hw (by omega), tok125]

theorem text_done {fin : Bytes → Bool} {v : Val} {t : Bytes} (h : Text fin v t) : DoneA fin v t :=
  Text.rec (fin := fin) (motive_1 := fun v t _ => DoneA fin v t) (motive_2 := fun vs t _ => DoneB fin vs t) (motive_3 := fun ms t _ => DoneC fin ms t)
    (DoneA.of_step (by simp) fun _ _ _ => rfl)
    (DoneA.of_step (by simp) fun _ _ _ => rfl)
    (DoneA.of_step (by simp) fun _ _ _ => rfl)
    (fun _ hn hf => doneA_num hn hf)
    (fun h => doneA_str h)
    (fun h => doneA_emptyArr h)
    (fun h ih => doneA_arr h ih)
    (fun h => doneA_emptyObj h)
    (fun h ih => doneA_obj h ih)
    (fun ha ht hb ih => doneB_one ha ht hb ih)
    (fun ha ht hb _ ih ih' => doneB_more ha ht hb ih ih')
    (fun ha hk hb hc ht hd ih => doneC_one ha hk hb hc ht hd ih)
    (fun ha hk hb hc ht hd _ ih ih' => doneC_more ha hk hb hc ht hd ih ih')
    h

/-! ### Soundness -/

/-- What a successful run says when it is at a value. -/
def ReadA (fin : Bytes → Bool) (n : Nat) : Prop :=
  ∀ s frames res, loop fin n (.value (scan s).1 (scan s).2 frames) = some res →
    ∃ v a t r m, Ws a ∧ Text fin v t ∧ s = a ++ t ++ r ∧ m < n ∧ loop fin m (.after v r frames) = some res

def ReadB (fin : Bytes → Bool) (n : Nat) : Prop :=
  ∀ s done fs res, loop fin n (.value (scan s).1 (scan s).2 (.arr done :: fs)) = some res →
    ∃ vs t r m, Items fin vs t ∧ s = t ++ 93 :: r ∧ m < n ∧ loop fin m (.after (.arr (done ++ vs)) r fs) = some res

def ReadC (fin : Bytes → Bool) (n : Nat) : Prop :=
  ∀ s fields fs s' res, member fields (scan s).1 (scan s).2 fs = .next s' → loop fin n s' = some res →
    ∃ ms t r m, Members fin ms t ∧ s = t ++ 125 :: r ∧ m < n ∧
      loop fin m (.after (.obj (ms.foldl (fun o m => setField m.1 m.2 o) fields)) r fs) = some res

theorem loop_step {fin : Bytes → Bool} {n : Nat} {s : State} {res : Val × Bytes} (h : loop fin n s = some res) :
    ∃ k, n = k + 1 ∧ ((∃ s', step fin s = .next s' ∧ loop fin k s' = some res) ∨ (∃ v r, step fin s = .done v r ∧ res = (v, r))) := by
  cases n with
  | zero => cases h
  | succ k =>
    refine ⟨k, rfl, ?_⟩
    rw [loop] at h
    cases hs : step fin s with
    | next s' => rw [hs] at h; exact .inl ⟨s', rfl, h⟩
    | done v r => rw [hs] at h; exact .inr ⟨v, r, rfl, (Option.some.inj h).symm⟩
    | error => rw [hs] at h; cases h

theorem reads_number {fin : Bytes → Bool} {n : NumLit} {v : Val} (hn : n.Ok) (e : n.val = v) (hf : ∀ x, v = .float x → fin x = true) :
    Text fin v n.text := by
  subst e
  exact .num n hn fun h => hf _ h

theorem readA {fin : Bytes → Bool} {n : Nat} (hB : ∀ k, k < n → ReadB fin k) (hC : ∀ k, k < n → ReadC fin k) : ReadA fin n := by
  intro s frames res h
  obtain ⟨a, s', ha, rfl, hr⟩ := scan_reads s
  obtain ⟨k, hk', h'⟩ := loop_step h
  subst hk'
  clear h
  rename' h' => h
  generalize (scan (a ++ s')).1 = tk at hr h
  generalize (scan (a ++ s')).2 = r at hr h
  have leaf : ∀ {v : Val} {t : Bytes}, step fin (.value tk r frames) = .next (.after v r frames) → Text fin v t → s' = t ++ r →
      ∃ v a' t r' m, Ws a' ∧ Text fin v t ∧ a ++ s' = a' ++ t ++ r' ∧ m < k + 1 ∧ loop fin m (.after v r' frames) = some res := by
    intro v t hs ht es
    rcases h with ⟨s1, h1, h2⟩ | ⟨v1, r1, h1, _⟩
    · rw [hs] at h1
      cases h1
      exact ⟨v, a, t, r, k, ha, ht, by rw [es, List.append_assoc], by omega, h2⟩
    · rw [hs] at h1; cases h1
  have bad : step fin (.value tk r frames) = .error → False := by
    intro hs
    rcases h with ⟨s1, h1, _⟩ | ⟨v1, r1, h1, _⟩ <;> rw [hs] at h1 <;> cases h1
  cases tk with
  | litTrue => exact leaf rfl .true hr
  | litFalse => exact leaf rfl .false hr
  | litNull => exact leaf rfl .null hr
  | str x =>
    obtain ⟨t, cs, h1, rfl, rfl⟩ := hr
    exact leaf rfl (.str h1) (by simp)
  | unsigned x =>
    obtain ⟨n, h1, h2, h3⟩ := hr
    exact leaf rfl (reads_number h1 h2 fun _ e => by cases e) h3
  | integer x =>
    obtain ⟨n, h1, h2, h3⟩ := hr
    exact leaf rfl (reads_number h1 h2 fun _ e => by cases e) h3
  | float x =>
    obtain ⟨n, h1, h2, h3⟩ := hr
    by_cases hf : fin x = true
    · refine leaf ?_ (reads_number h1 h2 fun _ e => by cases e; exact hf) h3
      show (if fin x = true then _ else _) = _
      rw [if_pos hf]
    · refine absurd ?_ bad
      show (if fin x = true then _ else _) = _
      rw [if_neg hf]
  | endArray => exact (bad rfl).elim
  | endObject => exact (bad rfl).elim
  | nameSep => exact (bad rfl).elim
  | valueSep => exact (bad rfl).elim
  | eoi => exact (bad rfl).elim
  | error => exact (bad rfl).elim
  | beginArray =>
    have hr : s' = 91 :: r := hr
    rcases h with ⟨s1, h1, h2⟩ | ⟨v1, r1, h1, _⟩
    · simp only [step] at h1
      split at h1
      · rename_i r1 e
        cases h1
        obtain ⟨b, s2, hb, e2, hr2⟩ := scan_reads r
        rw [e] at hr2
        have hr2 : s2 = 93 :: r1 := hr2
        refine ⟨.arr [], a, _, r1, k, ha, .emptyArr hb, ?_, by omega, h2⟩
        rw [hr, e2, hr2]; simp
      · rename_i t1 r1 e
        cases h1
        have : loop fin k (.value (scan r).1 (scan r).2 (.arr [] :: frames)) = some res := by rw [e]; exact h2
        obtain ⟨vs, t, r2, m, h3, h4, h5, h6⟩ := hB k (by omega) r [] frames res this
        refine ⟨.arr vs, a, _, r2, m, ha, .arr h3, ?_, by omega, h6⟩
        rw [hr, h4]; simp
    · simp only [step] at h1
      split at h1 <;> cases h1
  | beginObject =>
    have hr : s' = 123 :: r := hr
    have hst : step fin (.value .beginObject r frames) = (match scan r with
      | (.endObject, r) => Outcome.next (.after (.obj []) r frames)
      | (t, r) => member [] t r frames) := rfl
    rw [hst] at h
    rcases h with ⟨s1, h1, h2⟩ | ⟨v1, r1, h1, _⟩
    · split at h1
      · rename_i r1 e
        cases h1
        obtain ⟨b, s2, hb, e2, hr2⟩ := scan_reads r
        rw [e] at hr2
        have hr2 : s2 = 125 :: r1 := hr2
        refine ⟨.obj [], a, _, r1, k, ha, .emptyObj hb, ?_, by omega, h2⟩
        rw [hr, e2, hr2]; simp
      · rename_i t1 r1 e
        have : member [] (scan r).1 (scan r).2 frames = .next s1 := by rw [e]; exact h1
        obtain ⟨ms, t, r2, m, h3, h4, h5, h6⟩ := hC k (by omega) r [] frames s1 res this h2
        refine ⟨.obj (object ms), a, _, r2, m, ha, .obj h3, ?_, by omega, h6⟩
        rw [hr, h4]; simp
    · split at h1
      · cases h1
      · unfold member at h1
        split at h1
        · split at h1 <;> cases h1
        · cases h1

theorem readB {fin : Bytes → Bool} {n : Nat} (hA : ReadA fin n) (hB : ∀ k, k < n → ReadB fin k) : ReadB fin n := by
  intro s done fs res h
  obtain ⟨v, a, t, r, m, ha, ht, rfl, hm, h⟩ := hA s _ res h
  obtain ⟨k, hk', h'⟩ := loop_step h
  subst hk'
  clear h
  rename' h' => h
  obtain ⟨b, s2, hb, e2, hr⟩ := scan_reads r
  rcases h with ⟨s1, h1, h2⟩ | ⟨v1, r1, h1, _⟩
  · simp only [step] at h1
    split at h1
    · rename_i r1 e
      cases h1
      rw [e] at hr
      have hr : s2 = 44 :: r1 := hr
      obtain ⟨vs, t', r2, m', h3, h4, h5, h6⟩ := hB k (by omega) r1 (done ++ [v]) fs res h2
      refine ⟨v :: vs, _, r2, m', .more ha ht hb h3, ?_, by omega, by simpa using h6⟩
      rw [e2, hr, h4]; simp
    · rename_i r1 e
      cases h1
      rw [e] at hr
      have hr : s2 = 93 :: r1 := hr
      refine ⟨[v], _, r1, k, .one ha ht hb, ?_, by omega, h2⟩
      rw [e2, hr]; simp
    · cases h1
  · simp only [step] at h1
    split at h1 <;> cases h1

theorem readC {fin : Bytes → Bool} {n : Nat} (hA : ReadA fin n) (hC : ∀ k, k < n → ReadC fin k) : ReadC fin n := by
  intro s fields fs s' res h0 h
  obtain ⟨a, s1, ha, rfl, hr⟩ := scan_reads s
  unfold member at h0
  split at h0
  · rename_i k e
    rw [e] at hr
    obtain ⟨kt, cs, hk, rfl, es⟩ := hr
    obtain ⟨b, s2, hb, e2, hr2⟩ := scan_reads (scan (a ++ s1)).2
    split at h0
    · rename_i x e'
      cases h0
      rw [e'] at hr2
      have hr2 : s2 = 58 :: x := hr2
      obtain ⟨v, c, t, r, m, hc, ht, ex, hm, h⟩ := hA x _ res h
      obtain ⟨j, hk', h'⟩ := loop_step h
      subst hk'
      clear h
      rename' h' => h
      obtain ⟨d, s3, hd, e3, hr3⟩ := scan_reads r
      have hst : step fin (.after v r (.obj fields (cs.flatMap utf8) :: fs)) = (match scan r with
        | (.valueSep, r) => member (setField (cs.flatMap utf8) v fields) (scan r).1 (scan r).2 fs
        | (.endObject, r) => .next (.after (.obj (setField (cs.flatMap utf8) v fields)) r fs)
        | _ => .error) := rfl
      rw [hst] at h
      rcases h with ⟨s4, h1, h2⟩ | ⟨v1, r1, h1, _⟩
      · split at h1
        · rename_i r1 e4
          rw [e4] at hr3
          have hr3 : s3 = 44 :: r1 := hr3
          obtain ⟨ms, u, r2, m', h3, h4, h5, h6⟩ := hC j (by omega) r1 _ fs s4 res h1 h2
          refine ⟨(cs.flatMap utf8, v) :: ms, _, r2, m', .more ha hk hb hc ht hd h3, ?_, by omega, h6⟩
          rw [es, e2, hr2, ex, e3, hr3, h4]; simp
        · rename_i r1 e4
          cases h1
          rw [e4] at hr3
          have hr3 : s3 = 125 :: r1 := hr3
          refine ⟨[(cs.flatMap utf8, v)], _, r1, j, .one ha hk hb hc ht hd, ?_, by omega, h2⟩
          rw [es, e2, hr2, ex, e3, hr3]; simp
        · cases h1
      · split at h1
        · unfold member at h1
          split at h1
          · split at h1 <;> cases h1
          · cases h1
        · cases h1
        · cases h1
    · cases h0
  · cases h0

theorem read_all (fin : Bytes → Bool) (n : Nat) : ReadA fin n ∧ ReadB fin n ∧ ReadC fin n := by
  induction n using Nat.strongRecOn with
  | ind n ih =>
    have hA := readA (fun k hk => (ih k hk).2.1) (fun k hk => (ih k hk).2.2)
    exact ⟨hA, readB hA fun k hk => (ih k hk).2.1, readC hA fun k hk => (ih k hk).2.2⟩

/-! ### C89 -/

/-- The end of the input: nothing, or a zero byte and anything. -/
def Ends (e : Bytes) : Prop := e = [] ∨ ∃ r, e = 0 :: r

theorem skipBom_text {fin : Bytes → Bool} {v : Val} {t : Bytes} (h : JsonText fin v t) (e : Bytes) : skipBom (t ++ e) = some (t ++ e) := by
  cases h with
  | mk ha ht hb =>
    rename_i a t b
    have hne : ∀ s, a ++ t ++ b ++ e ≠ 0xEF :: s := by
      intro s h
      cases a with
      | nil =>
        obtain ⟨c, x, rfl, _, _, _, h5⟩ := text_begins ht
        rw [List.nil_append, List.cons_append, List.cons_append] at h
        have := (List.cons.inj h).1
        omega
      | cons c a =>
        have := ha c (List.mem_cons_self ..)
        have e := (List.cons.inj h).1
        omega
    unfold skipBom
    split
    · rename_i e'; exact absurd e' (hne _)
    · rfl

theorem parse_text {fin : Bytes → Bool} {v : Val} {t : Bytes} (h : JsonText fin v t) {e : Bytes} (he : Ends e) {s : Bytes}
    (hs : skipBom s = some (t ++ e)) : parse fin s = some v := by
  cases h with
  | mk ha ht hb =>
    rename_i a t b
    have hsep : Sep e := by
      rcases he with rfl | ⟨r, rfl⟩
      · exact sep_nil
      · exact sep_cons (by omega) r
    obtain ⟨n, h1, h2⟩ := text_done ht (b ++ e) (sep_ws hb hsep) []
    unfold parse
    rw [hs]
    simp only [Option.bind_eq_bind, Option.bind_some]
    have e1 : a ++ t ++ b ++ e = a ++ t ++ (b ++ e) := by simp
    have e2 : 2 * (a ++ t ++ (b ++ e)).length + 4 = (2 * (a ++ t ++ (b ++ e)).length + 3 - n + 1) + n := by
      simp only [List.length_append]; omega
    rw [e1, scan_text ht ha, e2, h2, loop]
    simp only [step, Option.bind_some]
    have : (scan (b ++ e)).1 = .eoi := by
      rcases he with rfl | ⟨r, rfl⟩
      · unfold scan; rw [skipWs_ws hb]; rfl
      · rw [scan_ws hb (by omega)]; rfl
    rw [this]

theorem parse_sound {fin : Bytes → Bool} {v : Val} {s : Bytes} (h : parse fin s = some v) :
    ∃ t e, JsonText fin v t ∧ Ends e ∧ skipBom s = some (t ++ e) := by
  unfold parse at h
  simp only [Option.bind_eq_bind, Option.bind_eq_some_iff] at h
  obtain ⟨s1, h1, ⟨v1, r1⟩, h2, h3⟩ := h
  obtain ⟨v2, a, t, r, m, ha, ht, es, hm, hl⟩ := (read_all fin _).1 s1 [] _ h2
  obtain ⟨k, hk', hl'⟩ := loop_step hl
  subst hk'
  clear hl
  rename' hl' => hl
  rcases hl with ⟨s', h4, _⟩ | ⟨v3, r3, h4, h5⟩
  · cases h4
  · simp only [step, Outcome.done.injEq] at h4
    obtain ⟨rfl, rfl⟩ := h4
    obtain ⟨rfl, rfl⟩ := Prod.mk.inj h5
    simp only at h3
    obtain ⟨b, x, hb, e2, hr⟩ := scan_reads r1
    split at h3
    · rename_i e
      rw [e] at hr
      cases h3
      refine ⟨a ++ t ++ b, x, .mk ha ht hb, ?_, by rw [h1, es, e2]; simp⟩
      rcases hr with ⟨h, _⟩ | h
      · exact .inl h
      · exact .inr ⟨_, h⟩
    · cases h3

theorem skipBom_some {s r : Bytes} (h : skipBom s = some r) : s = r ∨ s = bom ++ r := by
  unfold skipBom at h
  split at h
  · split at h
    · cases h; exact .inr rfl
    · cases h
  · cases h; exact .inl rfl

/-- **C89.**  The reader accepts a file if and only if it is a JSON text (RFC 8259), possibly after a byte order mark, and possibly followed by a zero byte and
anything; the value returned is the one the text denotes. -/
theorem parse_iff {fin : Bytes → Bool} {v : Val} {s : Bytes} :
    parse fin s = some v ↔ ∃ t e, JsonText fin v t ∧ (e = [] ∨ ∃ r, e = 0 :: r) ∧ (s = t ++ e ∨ s = bom ++ (t ++ e)) := by
  constructor
  · intro h
    obtain ⟨t, e, h1, h2, h3⟩ := parse_sound h
    exact ⟨t, e, h1, h2, skipBom_some h3⟩
  · rintro ⟨t, e, h1, h2, rfl | rfl⟩
    · exact parse_text h1 h2 (skipBom_text h1 e)
    · exact parse_text h1 h2 rfl

/-- A text denotes one value. -/
theorem value_unique {fin : Bytes → Bool} {v v' : Val} {t : Bytes} (h : JsonText fin v t) (h' : JsonText fin v' t) : v = v' := by
  have h1 := parse_iff.mpr ⟨t, [], h, .inl rfl, .inl rfl⟩
  have h2 := parse_iff.mpr ⟨t, [], h', .inl rfl, .inl rfl⟩
  rw [h1] at h2
  exact Option.some.inj h2

end Verif.Json
