import Verif.Capture.Lemmas
import Mathlib.Tactic.Linarith

/-! # Captured output (C138) -/
set_option linter.unusedSimpArgs false
namespace NBK.Capture

/-! ## What the blocks of an execution print -/

/-- What was printed in a block: bytes by C functions, texts by Python. -/
structure Acc where
  bytes : Name → List Byte
  texts : Name → List (List Char)

def Acc.empty : Acc := ⟨fun _ => [], fun _ => []⟩

/-- What an event prints, in which of the open blocks (the innermost first). -/
def printed : List Acc → Ev → List Acc
  | a :: as, .put n b => { a with bytes := Function.update a.bytes n (a.bytes n ++ [b]) } :: as
  | a :: as, .py n t => { a with texts := Function.update a.texts n (a.texts n ++ [t]) } :: as
  | as, .enter => Acc.empty :: as
  | _ :: as, .leave => as
  | as, _ => as

/-- How many blocks inside are open after the events, `none` if a block ends that was open before. -/
def nesting : Nat → List Ev → Option Nat
  | d, [] => some d
  | d, .enter :: es => nesting (d + 1) es
  | 0, .leave :: _ => none
  | d + 1, .leave :: es => nesting d es
  | d, _ :: es => nesting d es

/-- What the body of a block prints itself, not the blocks in it. -/
def own (body : List Ev) : Acc := (body.foldl printed [Acc.empty]).headD Acc.empty

/-- The bytes and the texts in a stream. -/
def bytesOf (l : List Piece) : List Byte := l.flatMap fun
  | .c b => b
  | .py _ => []
def textsOf (l : List Piece) : List (List Char) := l.filterMap fun
  | .c _ => none
  | .py t => some t

theorem bytesOf_append (a b : List Piece) : bytesOf (a ++ b) = bytesOf a ++ bytesOf b := List.flatMap_append
theorem textsOf_append (a b : List Piece) : textsOf (a ++ b) = textsOf a ++ textsOf b := List.filterMap_append

/-! ## The invariant -/

/-- The table of descriptors with open blocks. -/
def Tabs (base : Table) : List Frame → Table → Prop
  | [], t => t = base
  | f :: fs, t => ∃ t0, Tabs base fs t0 ∧ Free f t0 ∧ t = frameTab f t0

/-- Blocks have their own pipes and streams. -/
def Ordered : List Frame → Nat → Nat → Prop
  | [], _, _ => True
  | f :: fs, p, q => f.p0 + 3 ≤ p ∧ f.q0 + 2 ≤ q ∧ Ordered fs f.p0 f.q0

def Idle (f : Frame) : Prop := f.exiting = false ∧ f.draining = false ∧ f.done = false

/-- `sys.stdout` and `sys.stderr` are those of the innermost block. -/
def SysOk (base : Name → Nat) : List Frame → (Name → Nat) → Prop
  | [], sys => sys = base
  | f :: fs, sys => sys = f.new ∧ SysOk base fs f.old

/-- Bytes are in the stream, in the pipe or (`extra`) in the buffer. -/
def Data (streams : Nat → List Piece) (pipes : Nat → List Byte) : List Frame → List Acc → (Name → List Byte) → Prop
  | [], [], _ => True
  | f :: fs, a :: as, extra =>
    (∀ n, bytesOf (streams (f.new n)) ++ pipes (f.pipe n) ++ extra n = a.bytes n ∧ textsOf (streams (f.new n)) = a.texts n) ∧ Data streams pipes fs as fun _ => []
  | _, _, _ => False

/-- What holds of the innermost block. -/
def Top (s : St) : Prop :=
  match s.frames with
  | [] => True
  | f :: fs => (f.draining = true → f.exiting = true) ∧ (f.done = true → f.draining = true) ∧ (∀ g ∈ fs, Idle g) ∧
      (f.exiting = true → (∀ n, s.buf n = []) ∧ s.call = none) ∧ (f.done = true → ∀ n, s.pipes (f.pipe n) = [])

/-- The pipes that a thread is about to read are not empty, and it reads the control pipe once, after the byte was written. -/
def PhOk (pi : Nat → List Byte) (f : Frame) : Prop := ∀ r, f.phase = .handle r →
  r.Nodup ∧ (.control ∈ r → f.exiting = true ∧ f.draining = false) ∧ ∀ n, .data n ∈ r → pi (f.pipe n) ≠ []

structure Inv (base : Table) (bsys : Name → Nat) (s : St) (as : List Acc) : Prop where
  open1 : base 1 ≠ none
  open2 : base 2 ≠ none
  tabs : Tabs base s.frames s.fds
  ordered : Ordered s.frames s.npipes s.nstreams
  sys : SysOk bsys s.frames s.sys
  data : Data s.streams s.pipes s.frames as s.buf
  top : Top s
  ph : ∀ f ∈ s.frames, PhOk s.pipes f

theorem pipe_lt {f : Frame} {p : Nat} (h : f.p0 + 3 ≤ p) (n : Name) : f.pipe n < p := by cases n <;> simp only [Frame.pipe] <;> omega
theorem new_lt {f : Frame} {q : Nat} (h : f.q0 + 2 ≤ q) (n : Name) : f.new n < q := by cases n <;> simp only [Frame.new] <;> omega
theorem pipe_ge (f : Frame) (n : Name) : f.p0 ≤ f.pipe n := by cases n <;> simp only [Frame.pipe] <;> omega
theorem new_ge (f : Frame) (n : Name) : f.q0 ≤ f.new n := by cases n <;> simp only [Frame.new] <;> omega
theorem pipe_inj (f : Frame) {a b : Name} (h : f.pipe a = f.pipe b) : a = b := by cases a <;> cases b <;> simp only [Frame.pipe] at h <;> first | rfl | omega
theorem new_inj (f : Frame) {a b : Name} (h : f.new a = f.new b) : a = b := by cases a <;> cases b <;> simp only [Frame.new] at h <;> first | rfl | omega

theorem Data.congr {st st' : Nat → List Piece} {pi pi' : Nat → List Byte} : ∀ (fs : List Frame) (as : List Acc) (ex : Name → List Byte) (p q : Nat), Ordered fs p q →
    (∀ k < p, pi' k = pi k) → (∀ k < q, st' k = st k) → Data st pi fs as ex → Data st' pi' fs as ex
  | [], [], _, _, _, _, _, _, h => h
  | [], _ :: _, _, _, _, _, _, _, h => h
  | _ :: _, [], _, _, _, _, _, _, h => h
  | f :: fs, a :: as, ex, p, q, ho, hp, hq, h => by
    obtain ⟨h1, h2⟩ := h
    refine ⟨fun n => ?_, Data.congr fs as _ f.p0 f.q0 ho.2.2 (fun k hk => hp k (by have := ho.1; omega)) (fun k hk => hq k (by have := ho.2.1; omega)) h2⟩
    rw [hp _ (pipe_lt ho.1 n), hq _ (new_lt ho.2.1 n)]
    exact h1 n

theorem Tabs.unique {base : Table} : ∀ (fs : List Frame) (t t' : Table), Tabs base fs t → Tabs base fs t' → t = t'
  | [], _, _, h, h' => h.trans h'.symm
  | f :: fs, t, t', ⟨a, h1, _, h3⟩, ⟨b, k1, _, k3⟩ => by rw [h3, k3, Tabs.unique fs a b h1 k1]

theorem SysOk.unique {base : Name → Nat} : ∀ (fs : List Frame) (a b : Name → Nat), SysOk base fs a → SysOk base fs b → a = b
  | [], _, _, h, h' => h.trans h'.symm
  | _ :: _, _, _, h, h' => h.1.trans h'.1.symm

theorem Tabs.open_ {base : Table} (h1 : base 1 ≠ none) (h2 : base 2 ≠ none) : ∀ (fs : List Frame) (t : Table), Tabs base fs t → t 1 ≠ none ∧ t 2 ≠ none
  | [], _, h => by rw [h]; exact ⟨h1, h2⟩
  | f :: fs, t, ⟨a, _, _, h3⟩ => by rw [h3]; simp [frameTab]

/-- In a block the C library writes to its pipes. -/
theorem Tabs.target {base : Table} {f : Frame} {fs : List Frame} {t : Table} (h : Tabs base (f :: fs) t) (n : Name) : t n.fd = some (.wr (f.pipe n)) := by
  obtain ⟨a, _, _, h3⟩ := h
  rw [h3]
  cases n <;> simp [frameTab, Name.fd, Frame.pipe]

theorem Data.head {st : Nat → List Piece} {pi : Nat → List Byte} {f : Frame} {fs : List Frame} {as : List Acc} {ex : Name → List Byte} (h : Data st pi (f :: fs) as ex) :
    ∃ a as', as = a :: as' ∧ (∀ n, bytesOf (st (f.new n)) ++ pi (f.pipe n) ++ ex n = a.bytes n ∧ textsOf (st (f.new n)) = a.texts n) ∧ Data st pi fs as' fun _ => [] := by
  cases as with
  | nil => exact h.elim
  | cons a as' => exact ⟨a, as', rfl, h.1, h.2⟩

theorem Data.nil {st : Nat → List Piece} {pi : Nat → List Byte} {as : List Acc} {ex : Name → List Byte} (h : Data st pi [] as ex) : as = [] := by
  cases as with
  | nil => rfl
  | cons a as' => exact h.elim

/-- A thread that reads moves bytes from its pipe to its stream. -/
theorem Data.read {st : Nat → List Piece} {pi : Nat → List Byte} (n : Name) : ∀ (fs : List Frame) (as : List Acc) (ex : Name → List Byte) (p q i : Nat) (f : Frame), Ordered fs p q → fs[i]? = some f →
    Data st pi fs as ex →
    Data (Function.update st (f.new n) (st (f.new n) ++ [.c ((pi (f.pipe n)).take chunk)])) (Function.update pi (f.pipe n) ((pi (f.pipe n)).drop chunk)) fs as ex ∧ f.pipe n < p ∧ f.new n < q
  | [], _, _, _, _, _, _, _, hi, _ => by simp at hi
  | g :: fs, as, ex, p, q, i, f, ho, hi, h => by
    obtain ⟨a, as', rfl, h1, h2⟩ := h.head
    cases i with
    | zero =>
      simp only [List.getElem?_cons_zero, Option.some.injEq] at hi
      subst hi
      refine ⟨⟨fun k => ?_, ?_⟩, pipe_lt ho.1 n, new_lt ho.2.1 n⟩
      · obtain ⟨e1, e2⟩ := h1 k
        by_cases hk : k = n
        · subst hk
          rw [Function.update_self, Function.update_self, bytesOf_append, textsOf_append]
          have : bytesOf [Piece.c ((pi (g.pipe k)).take chunk)] = (pi (g.pipe k)).take chunk := by simp [bytesOf]
          rw [this]
          refine ⟨?_, ?_⟩
          · rw [← e1, List.append_assoc, List.append_assoc, List.append_assoc, ← List.append_assoc _ _ (ex k), List.take_append_drop]
          · rw [← e2]; simp [textsOf]
        · rw [Function.update_of_ne (fun e => hk (new_inj g e)), Function.update_of_ne (fun e => hk (pipe_inj g e))]
          exact ⟨e1, e2⟩
      · refine Data.congr fs as' _ g.p0 g.q0 ho.2.2 (fun k hk => ?_) (fun k hk => ?_) h2
        · rw [Function.update_of_ne]
          have := pipe_ge g n; omega
        · rw [Function.update_of_ne]
          have := new_ge g n; omega
    | succ i =>
      simp only [List.getElem?_cons_succ] at hi
      obtain ⟨r1, r2, r3⟩ := Data.read n fs as' _ g.p0 g.q0 i f ho.2.2 hi h2
      refine ⟨⟨fun k => ?_, r1⟩, ?_, ?_⟩
      · rw [Function.update_of_ne (by have := new_ge g k; omega), Function.update_of_ne (by have := pipe_ge g k; omega)]
        exact h1 k
      · have := ho.1; omega
      · have := ho.2.1; omega

theorem below_idle {s : St} {f : Frame} {fs : List Frame} (ht : Top s) (hf : s.frames = f :: fs) (i : Nat) (g : Frame) (hg : s.frames[i + 1]? = some g) : Idle g := by
  unfold Top at ht
  rw [hf] at ht hg
  simp only [List.getElem?_cons_succ] at hg
  exact ht.2.2.1 g (List.mem_of_getElem? hg)

/-- A thread that may end is that of the innermost block. -/
theorem index_zero {s : St} (ht : Top s) {i : Nat} {g : Frame} (hg : s.frames[i]? = some g) (he : g.exiting = true ∨ g.draining = true) : i = 0 ∧ ∃ fs, s.frames = g :: fs := by
  cases hf : s.frames with
  | nil => rw [hf] at hg; simp at hg
  | cons f fs =>
    cases i with
    | zero => rw [hf] at hg; simp at hg; subst hg; exact ⟨rfl, fs, rfl⟩
    | succ i =>
      obtain ⟨h1, h2, -⟩ := below_idle ht hf i g hg
      rcases he with h | h
      · rw [h1] at h; cases h
      · rw [h2] at h; cases h

/-- Two blocks that differ in the phase of the thread. -/
def Same (f f' : Frame) : Prop := f' = { f with phase := f'.phase }

theorem Same.pipe {f f' : Frame} (h : Same f f') : f'.pipe = f.pipe := by rw [h]; rfl
theorem Same.new {f f' : Frame} (h : Same f f') : f'.new = f.new := by rw [h]; rfl
theorem Same.tab {f f' : Frame} (h : Same f f') : frameTab f' = frameTab f := by rw [h]; rfl
theorem Same.free {f f' : Frame} (h : Same f f') {t : Table} (k : Free f t) : Free f' t := by
  rw [h]; exact ⟨k.1, k.2, k.3, k.4, k.5, k.6, k.7, k.8, k.9⟩
theorem Same.p0 {f f' : Frame} (h : Same f f') : f'.p0 = f.p0 := by rw [h]
theorem Same.q0 {f f' : Frame} (h : Same f f') : f'.q0 = f.q0 := by rw [h]
theorem Same.old {f f' : Frame} (h : Same f f') : f'.old = f.old := by rw [h]
theorem Same.exiting {f f' : Frame} (h : Same f f') : f'.exiting = f.exiting := by rw [h]
theorem Same.draining {f f' : Frame} (h : Same f f') : f'.draining = f.draining := by rw [h]
theorem Same.done {f f' : Frame} (h : Same f f') : f'.done = f.done := by rw [h]

theorem Tabs.set {base : Table} {f f' : Frame} (hs : Same f f') : ∀ (fs : List Frame) (i : Nat) (t : Table), fs[i]? = some f → Tabs base fs t → Tabs base (fs.set i f') t
  | [], _, _, hi, _ => by simp at hi
  | g :: fs, 0, t, hi, ⟨t0, h1, h2, h3⟩ => by
    simp only [List.getElem?_cons_zero, Option.some.injEq] at hi
    subst hi
    exact ⟨t0, h1, hs.free h2, by rw [hs.tab]; exact h3⟩
  | g :: fs, i + 1, t, hi, ⟨t0, h1, h2, h3⟩ => by
    simp only [List.getElem?_cons_succ] at hi
    exact ⟨t0, Tabs.set hs fs i t0 hi h1, h2, h3⟩

theorem Ordered.set {f f' : Frame} (hs : Same f f') : ∀ (fs : List Frame) (i p q : Nat), fs[i]? = some f → Ordered fs p q → Ordered (fs.set i f') p q
  | [], _, _, _, hi, _ => by simp at hi
  | g :: fs, 0, p, q, hi, ⟨h1, h2, h3⟩ => by
    simp only [List.getElem?_cons_zero, Option.some.injEq] at hi
    subst hi
    refine ⟨?_, ?_, ?_⟩
    · rw [hs.p0]; exact h1
    · rw [hs.q0]; exact h2
    · rw [hs.p0, hs.q0]; exact h3
  | g :: fs, i + 1, p, q, hi, ⟨h1, h2, h3⟩ => by
    simp only [List.getElem?_cons_succ] at hi
    exact ⟨h1, h2, Ordered.set hs fs i _ _ hi h3⟩

theorem SysOk.set {base : Name → Nat} {f f' : Frame} (hs : Same f f') : ∀ (fs : List Frame) (i : Nat) (y : Name → Nat), fs[i]? = some f → SysOk base fs y → SysOk base (fs.set i f') y
  | [], _, _, hi, _ => by simp at hi
  | g :: fs, 0, y, hi, ⟨h1, h2⟩ => by
    simp only [List.getElem?_cons_zero, Option.some.injEq] at hi
    subst hi
    exact ⟨by rw [hs.new]; exact h1, by rw [hs.old]; exact h2⟩
  | g :: fs, i + 1, y, hi, ⟨h1, h2⟩ => by
    simp only [List.getElem?_cons_succ] at hi
    exact ⟨h1, SysOk.set hs fs i _ hi h2⟩

theorem Data.set {st : Nat → List Piece} {pi : Nat → List Byte} {f f' : Frame} (hs : Same f f') : ∀ (fs : List Frame) (as : List Acc) (ex : Name → List Byte) (i : Nat), fs[i]? = some f →
    Data st pi fs as ex → Data st pi (fs.set i f') as ex
  | [], _, _, _, hi, _ => by simp at hi
  | g :: fs, as, ex, 0, hi, h => by
    simp only [List.getElem?_cons_zero, Option.some.injEq] at hi
    subst hi
    obtain ⟨a, as', rfl, h1, h2⟩ := h.head
    exact ⟨by rw [hs.new, hs.pipe]; exact h1, h2⟩
  | g :: fs, as, ex, i + 1, hi, h => by
    simp only [List.getElem?_cons_succ] at hi
    obtain ⟨a, as', rfl, h1, h2⟩ := h.head
    exact ⟨h1, Data.set hs fs as' _ i hi h2⟩

theorem Top.set {s : St} {f f' : Frame} (hs : Same f f') {i : Nat} (hi : s.frames[i]? = some f) (h : Top s) : Top { s with frames := s.frames.set i f' } := by
  unfold Top at h ⊢
  cases hf : s.frames with
  | nil => trivial
  | cons g fs =>
    rw [hf] at h hi
    simp only at h ⊢
    cases i with
    | zero =>
      simp only [List.getElem?_cons_zero, Option.some.injEq] at hi
      subst hi
      simp only [List.set_cons_zero]
      rw [hs.exiting, hs.draining, hs.done, hs.pipe]
      exact h
    | succ i =>
      simp only [List.getElem?_cons_succ] at hi
      simp only [List.set_cons_succ]
      refine ⟨h.1, h.2.1, fun x hx => ?_, h.2.2.2.1, h.2.2.2.2⟩
      rcases List.mem_or_eq_of_mem_set hx with hx | rfl
      · exact h.2.2.1 x hx
      · have := h.2.2.1 f (List.mem_of_getElem? hi)
        unfold Idle
        rw [hs.exiting, hs.draining, hs.done]
        exact this

/-- A thread goes from one phase to another, without reading. -/
theorem inv_phase {base : Table} {bsys : Name → Nat} {s : St} {as : List Acc} (hi : Inv base bsys s as) {f f' : Frame} {i : Nat} (hg : s.frames[i]? = some f) (hs : Same f f')
    (hp : PhOk s.pipes f') : Inv base bsys { s with frames := s.frames.set i f' } as := by
  refine ⟨hi.open1, hi.open2, hi.tabs.set hs _ i _ hg, hi.ordered.set hs _ i _ _ hg, hi.sys.set hs _ i _ hg, hi.data.set hs _ _ _ i hg, hi.top.set hs hg, fun x hx => ?_⟩
  rcases List.mem_or_eq_of_mem_set hx with hx | rfl
  · exact hi.ph x hx
  · exact hp

theorem ready_ok (s : St) (f : Frame) : (ready s f).Nodup ∧ (.control ∈ ready s f → f.exiting = true ∧ f.draining = false) ∧ ∀ n, .data n ∈ ready s f → s.pipes (f.pipe n) ≠ [] := by
  unfold ready
  refine ⟨?_, ?_, ?_⟩
  · split_ifs <;> simp
  · intro h
    by_cases hc : (f.exiting && !f.draining) = true
    · simpa using hc
    · rw [if_neg hc] at h
      split_ifs at h <;> simp at h
  · intro n h
    cases n
    · by_cases hc : s.pipes (f.pipe .out) ≠ []
      · exact hc
      · rw [if_neg hc] at h
        split_ifs at h <;> simp at h
    · by_cases hc : s.pipes (f.pipe .err) ≠ []
      · exact hc
      · rw [if_neg hc] at h
        split_ifs at h <;> simp at h

theorem Ordered.pipe_lt' : ∀ (fs : List Frame) (p q : Nat), Ordered fs p q → ∀ f ∈ fs, ∀ n, f.pipe n < p
  | [], _, _, _, _, hf, _ => by cases hf
  | g :: fs, p, q, ho, f, hf, n => by
    rcases List.mem_cons.mp hf with rfl | hf
    · exact pipe_lt ho.1 n
    · have := Ordered.pipe_lt' fs _ _ ho.2.2 f hf n
      have := ho.1; omega

/-- Different blocks have different pipes. -/
theorem Ordered.pipe_ne : ∀ (fs : List Frame) (p q i j : Nat) (f g : Frame), Ordered fs p q → fs[i]? = some f → fs[j]? = some g → i ≠ j → ∀ a b, f.pipe a ≠ g.pipe b
  | [], _, _, _, _, _, _, _, hi, _, _, _, _ => by simp at hi
  | x :: fs, p, q, 0, 0, f, g, _, _, _, hij, _, _ => absurd rfl hij
  | x :: fs, p, q, 0, j + 1, f, g, ho, hi, hj, _, a, b => by
    simp only [List.getElem?_cons_zero, Option.some.injEq, List.getElem?_cons_succ] at hi hj
    subst hi
    have := Ordered.pipe_lt' fs _ _ ho.2.2 g (List.mem_of_getElem? hj) b
    have := pipe_ge x a
    omega
  | x :: fs, p, q, i + 1, 0, f, g, ho, hi, hj, _, a, b => by
    simp only [List.getElem?_cons_zero, Option.some.injEq, List.getElem?_cons_succ] at hi hj
    subst hj
    have := Ordered.pipe_lt' fs _ _ ho.2.2 f (List.mem_of_getElem? hi) a
    have := pipe_ge x b
    omega
  | x :: fs, p, q, i + 1, j + 1, f, g, ho, hi, hj, hij, a, b => by
    simp only [List.getElem?_cons_succ] at hi hj
    exact Ordered.pipe_ne fs _ _ i j f g ho.2.2 hi hj (by omega) a b

theorem PhOk.congr {pi pi' : Nat → List Byte} {f : Frame} (h : PhOk pi f) (hp : ∀ n, pi (f.pipe n) ≠ [] → pi' (f.pipe n) ≠ []) : PhOk pi' f := fun r hr =>
  ⟨(h r hr).1, (h r hr).2.1, fun n hn => hp n ((h r hr).2.2 n hn)⟩

theorem frames_cases (s : St) : s.frames = [] ∨ ∃ f fs, s.frames = f :: fs := by
  cases s.frames with
  | nil => exact .inl rfl
  | cons f fs => exact .inr ⟨f, fs, rfl⟩

/-- C138 (core): every event keeps the invariant, and the streams, pipes and the buffer have what was printed. -/
theorem inv_step (m : Mach) (base : Table) (bsys : Name → Nat) (s s' : St) (as : List Acc) (hi : Inv base bsys s as) (e : Ev) (h : step m s e = some s') :
    Inv base bsys s' (printed as e) := by
  have inv := hi
  obtain ⟨o1, o2, tabs, ord, sys, data, top, ph⟩ := hi
  cases e with
  | py n t =>
    simp only [step] at h
    split at h
    · cases h
    rename_i hc
    simp only [Option.some.injEq] at h
    subst h
    simp only [Bool.or_eq_true, not_or, Bool.not_eq_true] at hc
    rcases frames_cases s with hf | ⟨f, fs, hf⟩
    · rw [hf] at data
      have := data.nil
      subst this
      refine ⟨o1, o2, tabs, ord, sys, ?_, ?_, ph⟩
      · simp only [hf]; trivial
      · unfold Top; simp only [hf]
    · rw [hf] at data sys
      obtain ⟨a, as', rfl, d1, d2⟩ := data.head
      have hs : s.sys = f.new := sys.1
      refine ⟨o1, o2, tabs, ord, by simp only [hf]; exact sys, ?_, ?_, ph⟩
      · simp only [hf, hs]
        rw [hf] at ord
        refine ⟨fun k => ?_, ?_⟩
        · obtain ⟨e1, e2⟩ := d1 k
          by_cases hk : k = n
          · subst hk
            simp only [Function.update_self, bytesOf_append, textsOf_append]
            have b0 : bytesOf [Piece.py t] = [] := by simp [bytesOf]
            have t0 : textsOf [Piece.py t] = [t] := by simp [textsOf]
            rw [b0, t0, List.append_nil, e2]
            exact ⟨e1, rfl⟩
          · simp only [Function.update_of_ne (fun e => hk (new_inj f e)), Function.update_of_ne hk]
            exact ⟨e1, e2⟩
        · refine Data.congr fs as' _ f.p0 f.q0 ord.2.2 (fun _ _ => rfl) (fun k hk => ?_) d2
          rw [Function.update_of_ne]
          have := new_ge f n; omega
      · unfold Top at top ⊢
        simp only [hf] at top ⊢
        exact top
  | call g l =>
    simp only [step] at h
    split at h
    · cases h
    rename_i hc
    simp only [Option.some.injEq] at h
    subst h
    simp only [Bool.or_eq_true, not_or, Bool.not_eq_true] at hc
    have hp : printed as (.call g l) = as := by cases as <;> rfl
    rw [hp]
    refine ⟨o1, o2, tabs, ord, sys, data, ?_, ph⟩
    unfold Top at top ⊢
    cases hf : s.frames with
    | nil => trivial
    | cons f fs =>
      rw [hf] at top
      simp only at top ⊢
      refine ⟨top.1, top.2.1, top.2.2.1, fun he => ?_, top.2.2.2.2⟩
      have := hc.2
      unfold St.waiting at this
      rw [hf] at this
      simp only at this
      rw [this] at he
      cases he
  | put n b =>
    simp only [step] at h
    split at h
    · rename_i g x l hcall
      split at h
      · rename_i hx
        simp only [Option.some.injEq] at h
        subst h
        rcases frames_cases s with hf | ⟨f, fs, hf⟩
        · rw [hf] at data
          have := data.nil
          subst this
          refine ⟨o1, o2, tabs, ord, sys, ?_, ?_, ph⟩
          · simp only [hf]; trivial
          · unfold Top; simp only [hf]
        · rw [hf] at data
          obtain ⟨a, as', rfl, d1, d2⟩ := data.head
          have hne : f.exiting = false := by
            unfold Top at top
            rw [hf] at top
            simp only at top
            by_contra hc
            have := (top.2.2.2.1 (by simpa using hc)).2
            rw [hcall] at this
            cases this
          refine ⟨o1, o2, tabs, ord, sys, ?_, ?_, ph⟩
          · simp only [hf]
            refine ⟨fun k => ?_, d2⟩
            obtain ⟨e1, e2⟩ := d1 k
            by_cases hk : k = n
            · subst hk
              simp only [Function.update_self]
              refine ⟨?_, e2⟩
              rw [← e1]
              simp only [List.append_assoc]
            · simp only [Function.update_of_ne hk]
              exact ⟨e1, e2⟩
          · unfold Top at top ⊢
            simp only [hf] at top ⊢
            refine ⟨top.1, top.2.1, top.2.2.1, fun he => ?_, top.2.2.2.2⟩
            rw [hne] at he
            cases he
      · cases h
    · cases h
  | drain n =>
    have hp : printed as (.drain n) = as := by cases as <;> rfl
    rw [hp]
    simp only [step] at h
    split at h
    · cases h
    rename_i b rest hb
    unfold drainTo at h
    rcases frames_cases s with hf | ⟨f, fs, hf⟩
    · rw [hf] at data
      have := data.nil
      subst this
      split at h
      · simp only [Option.some.injEq] at h
        subst h
        exact ⟨o1, o2, tabs, ord, sys, by simp only [hf]; trivial, by unfold Top; simp only [hf], ph⟩
      · split at h
        · simp only [Option.some.injEq] at h
          subst h
          exact ⟨o1, o2, tabs, ord, sys, by simp only [hf]; trivial, by unfold Top; simp only [hf], fun x hx => by have hx' : x ∈ s.frames := hx; rw [hf] at hx'; cases hx'⟩
        · cases h
      · cases h
    · rw [hf] at tabs data
      rw [tabs.target n] at h
      simp only at h
      split at h
      · simp only [Option.some.injEq] at h
        subst h
        obtain ⟨a, as', rfl, d1, d2⟩ := data.head
        have hne : f.exiting = false := by
          unfold Top at top
          rw [hf] at top
          simp only at top
          by_contra hc
          have := (top.2.2.2.1 (by simpa using hc)).1 n
          rw [hb] at this
          cases this
        refine ⟨o1, o2, by simp only [hf]; exact tabs, ord, sys, ?_, ?_, fun x hx => (ph x hx).congr fun k hk => ?_⟩
        · simp only [hf]
          rw [hf] at ord
          refine ⟨fun k => ?_, ?_⟩
          · obtain ⟨e1, e2⟩ := d1 k
            by_cases hk : k = n
            · subst hk
              simp only [Function.update_self]
              refine ⟨?_, e2⟩
              rw [← e1, hb]
              simp only [List.append_assoc, List.singleton_append]
            · simp only [Function.update_of_ne hk, Function.update_of_ne (fun e => hk (pipe_inj f e))]
              exact ⟨e1, e2⟩
          · refine Data.congr fs as' _ f.p0 f.q0 ord.2.2 (fun k hk => ?_) (fun _ _ => rfl) d2
            rw [Function.update_of_ne]
            have := pipe_ge f n; omega
        · unfold Top at top ⊢
          simp only [hf] at top ⊢
          refine ⟨top.1, top.2.1, top.2.2.1, fun he => ?_, fun hd => ?_⟩
          · rw [hne] at he; cases he
          · have := top.1 (top.2.1 hd)
            rw [hne] at this; cases this
        · show Function.update s.pipes (f.pipe n) (s.pipes (f.pipe n) ++ [b]) (x.pipe k) ≠ []
          by_cases he : x.pipe k = f.pipe n
          · rw [he, Function.update_self]; simp
          · rw [Function.update_of_ne he]; exact hk
      · cases h
  | ret =>
    have hp : printed as .ret = as := by cases as <;> rfl
    rw [hp]
    simp only [step] at h
    split at h
    · simp only [Option.some.injEq] at h
      subst h
      refine ⟨o1, o2, tabs, ord, sys, data, ?_, ph⟩
      unfold Top at top ⊢
      cases hf : s.frames with
      | nil => trivial
      | cons f fs =>
        rw [hf] at top
        simp only at top ⊢
        exact ⟨top.1, top.2.1, top.2.2.1, fun he => ⟨(top.2.2.2.1 he).1, trivial⟩, top.2.2.2.2⟩
    · cases h
  | enter =>
    have hp : printed as .enter = Acc.empty :: as := by cases as <;> rfl
    rw [hp]
    simp only [step] at h
    split at h
    · cases h
    rename_i hc
    simp only [Bool.or_eq_true, not_or, Bool.not_eq_true, decide_eq_true_eq, ne_eq, not_not] at hc
    obtain ⟨⟨⟨hcall, hwait⟩, hb1⟩, hb2⟩ := hc
    have hbuf : ∀ n, s.buf n = [] := by intro n; cases n <;> assumption
    split at h
    · cases h
    rename_i f t hs
    simp only [Option.some.injEq] at h
    subst h
    obtain ⟨p1, p2⟩ := Tabs.open_ o1 o2 _ _ tabs
    obtain ⟨k1, k2, k3, k4, k5, k6, k7, k8⟩ := setup_ok p1 p2 hs
    refine ⟨o1, o2, ⟨s.fds, tabs, k1, k2⟩, ⟨by show f.p0 + 3 ≤ s.npipes + 3; omega, by show f.q0 + 2 ≤ s.nstreams + 2; omega, by rw [k3, k4]; exact ord⟩, ⟨rfl, by rw [k5]; exact sys⟩, ?_, ?_, fun x hx => ?_⟩
    · refine ⟨fun n => ?_, ?_⟩
      · have e1 : Function.update (Function.update s.streams (f.new .out) []) (f.new .err) [] (f.new n) = [] := by
          cases n
          · rw [Function.update_of_ne (fun e => by cases new_inj f e), Function.update_self]
          · rw [Function.update_self]
        have e2 : Function.update (Function.update s.pipes (f.pipe .out) []) (f.pipe .err) [] (f.pipe n) = [] := by
          cases n
          · rw [Function.update_of_ne (fun e => by cases pipe_inj f e), Function.update_self]
          · rw [Function.update_self]
        simp only [e1, e2, hbuf]
        exact ⟨rfl, rfl⟩
      · have hd : Data s.streams s.pipes s.frames as fun _ => [] := by
          have : s.buf = fun _ => [] := funext hbuf
          rw [← this]; exact data
        refine Data.congr s.frames as _ s.npipes s.nstreams ord (fun k hk => ?_) (fun k hk => ?_) hd
        · have h1 := pipe_ge f .out
          have h2 := pipe_ge f .err
          show Function.update (Function.update s.pipes (f.pipe .out) []) (f.pipe .err) [] k = s.pipes k
          rw [Function.update_of_ne (by omega), Function.update_of_ne (by omega)]
        · have h1 := new_ge f .out
          have h2 := new_ge f .err
          show Function.update (Function.update s.streams (f.new .out) []) (f.new .err) [] k = s.streams k
          rw [Function.update_of_ne (by omega), Function.update_of_ne (by omega)]
    · unfold Top
      simp only [k6, k7, k8, Bool.false_eq_true, false_implies, true_and, and_true]
      intro g hg
      unfold Top at top
      unfold St.waiting at hwait
      cases hf : s.frames with
      | nil => rw [hf] at hg; cases hg
      | cons g' fs =>
        rw [hf] at hg top hwait
        simp only at top hwait
        rcases List.mem_cons.mp hg with rfl | hg
        · refine ⟨hwait, ?_, ?_⟩
          · by_contra hd
            have := top.1 (by simpa using hd)
            rw [hwait] at this; cases this
          · by_contra hd
            have := top.1 (top.2.1 (by simpa using hd))
            rw [hwait] at this; cases this
        · exact top.2.2.1 g hg
    · rcases List.mem_cons.mp hx with rfl | hx
      · intro r hr
        rw [setup_phase hs] at hr
        cases hr
      · refine (ph x hx).congr fun k hk => ?_
        have hlt := Ordered.pipe_lt' _ _ _ ord x hx k
        have h1 := pipe_ge f .out
        have h2 := pipe_ge f .err
        show Function.update (Function.update s.pipes (f.pipe .out) []) (f.pipe .err) [] (x.pipe k) ≠ []
        rw [Function.update_of_ne (by omega), Function.update_of_ne (by omega)]
        exact hk
  | finish =>
    have hp : printed as .finish = as := by cases as <;> rfl
    rw [hp]
    simp only [step] at h
    split at h
    · cases h
    rename_i hc
    simp only [Bool.or_eq_true, not_or, Bool.not_eq_true, decide_eq_true_eq, ne_eq, not_not] at hc
    obtain ⟨⟨⟨hcall, hwait⟩, hb1⟩, hb2⟩ := hc
    have hbuf : ∀ n, s.buf n = [] := by intro n; cases n <;> assumption
    split at h
    · cases h
    rename_i f fs hf
    simp only [Option.some.injEq] at h
    subst h
    rw [hf] at tabs ord sys data
    unfold Top at top
    rw [hf] at top
    simp only at top
    obtain ⟨t0, t1, t2, t3⟩ := tabs
    refine ⟨o1, o2, ⟨t0, t1, ⟨t2.1, t2.2, t2.3, t2.4, t2.5, t2.6, t2.7, t2.8, t2.9⟩, t3⟩, ord, sys, ?_, ?_, fun x hx => ?_⟩
    · obtain ⟨a, as', rfl, d1, d2⟩ := data.head
      exact ⟨d1, d2⟩
    · unfold Top
      exact ⟨fun _ => rfl, top.2.1, top.2.2.1, fun _ => ⟨hbuf, by simpa using hcall⟩, top.2.2.2.2⟩
    · rw [hf] at ph
      rcases List.mem_cons.mp hx with rfl | hx
      · intro r hr
        obtain ⟨c1, c2, c3⟩ := ph f List.mem_cons_self r hr
        exact ⟨c1, fun hc => ⟨rfl, (c2 hc).2⟩, c3⟩
      · exact ph x (List.mem_cons_of_mem _ hx)
  | leave =>
    simp only [step] at h
    split at h
    · cases h
    rename_i f fs hf
    split at h
    · rename_i hd
      simp only [Option.some.injEq] at h
      subst h
      unfold Top at top
      rw [hf] at top tabs ord sys data
      simp only at top
      obtain ⟨t0, t1, t2, t3⟩ := tabs
      obtain ⟨a, as', rfl, d1, d2⟩ := data.head
      have hdr := top.2.1 hd
      obtain ⟨hbuf, hcall⟩ := top.2.2.2.1 (top.1 hdr)
      refine ⟨o1, o2, ?_, ?_, sys.2, ?_, ?_, fun x hx => ph x (by rw [hf]; exact List.mem_cons_of_mem _ hx)⟩
      · show Tabs base fs (restore f s.fds)
        rw [t3, restore_tab t2 hdr hd]
        exact t1
      · show Ordered fs s.npipes s.nstreams
        have mono : ∀ (fs : List Frame) (p q p' q' : Nat), p ≤ p' → q ≤ q' → Ordered fs p q → Ordered fs p' q' := by
          intro fs p q p' q' hp hq ho
          cases fs with
          | nil => trivial
          | cons g gs => exact ⟨by have := ho.1; omega, by have := ho.2.1; omega, ho.2.2⟩
        exact mono fs f.p0 f.q0 _ _ (by have := ord.1; omega) (by have := ord.2.1; omega) ord.2.2
      · show Data s.streams s.pipes fs as' s.buf
        have : s.buf = fun _ => [] := funext hbuf
        rw [this]
        exact d2
      · unfold Top
        simp only
        cases fs with
        | nil => trivial
        | cons g gs =>
          obtain ⟨i1, i2, i3⟩ := top.2.2.1 g List.mem_cons_self
          simp only [i1, i2, i3, Bool.false_eq_true, false_implies, true_and, and_true]
          exact fun x hx => top.2.2.1 x (List.mem_cons_of_mem _ hx)
    · cases h
  | thread i =>
    have hp : printed as (.thread i) = as := by cases as <;> rfl
    rw [hp]
    simp only [step] at h
    split at h
    · cases h
    split at h
    · cases h
    rename_i f hg
    split at h
    · cases h
    rename_i hnd
    have hm := List.mem_of_getElem? hg
    unfold threadStep at h
    split at h
    · split_ifs at h
      simp only [Option.some.injEq] at h
      subst h
      exact inv_phase inv hg rfl (fun r hr => by cases hr)
    · split_ifs at h
      simp only [Option.some.injEq] at h
      subst h
      exact inv_phase inv hg rfl (fun r hr => by cases hr)
    · split at h
      · rename_i hr
        split_ifs at h with hdr
        · simp only [Option.some.injEq] at h
          subst h
          obtain ⟨rfl, fs, hf⟩ := index_zero top hg (.inr hdr)
          have hph : f.phase = .select := by assumption
          have hempty : ∀ n, s.pipes (f.pipe n) = [] := by
            unfold ready at hr
            simp only [List.append_eq_nil_iff, ite_eq_right_iff] at hr
            intro n
            cases n
            · by_contra hx; exact absurd (hr.1.2 hx) (by simp)
            · by_contra hx; exact absurd (hr.2 hx) (by simp)
          rw [hf] at tabs ord sys data
          unfold Top at top
          rw [hf] at top
          simp only at top
          obtain ⟨t0, t1, t2, t3⟩ := tabs
          refine ⟨o1, o2, ?_, ?_, ?_, ?_, ?_, ?_⟩
          · simp only [hf, List.set_cons_zero]
            refine ⟨t0, t1, ⟨t2.1, t2.2, t2.3, t2.4, t2.5, t2.6, t2.7, t2.8, t2.9⟩, ?_⟩
            rw [t3, stop_tab t2]
          · simp only [hf, List.set_cons_zero]; exact ord
          · simp only [hf, List.set_cons_zero]; exact sys
          · simp only [hf, List.set_cons_zero]
            obtain ⟨a, as', rfl, d1, d2⟩ := data.head
            exact ⟨d1, d2⟩
          · unfold Top
            simp only [hf, List.set_cons_zero]
            exact ⟨top.1, fun _ => hdr, top.2.2.1, top.2.2.2.1, fun _ n => hempty n⟩
          · intro x hx
            rcases List.mem_or_eq_of_mem_set hx with hx | rfl
            · exact ph x hx
            · intro r hr
              have : f.phase = .handle r := hr
              rw [hph] at this
              cases this
        · simp only [Option.some.injEq] at h
          subst h
          exact inv_phase inv hg rfl (fun r hr => by cases hr)
      · simp only [Option.some.injEq] at h
        subst h
        refine inv_phase inv hg rfl (fun r hr => ?_)
        simp only [Phase.handle.injEq] at hr
        rw [← hr]
        exact ready_ok s f
    · simp only [Option.some.injEq] at h
      subst h
      exact inv_phase inv hg rfl (fun r hr => by cases hr)
    · rename_i r hph
      simp only [Option.some.injEq] at h
      subst h
      obtain ⟨c1, c2, c3⟩ := ph f hm _ hph
      obtain ⟨hex, hndr⟩ := c2 List.mem_cons_self
      obtain ⟨rfl, fs, hf⟩ := index_zero top hg (.inl hex)
      rw [hf] at tabs ord sys data
      unfold Top at top
      rw [hf] at top
      simp only at top
      obtain ⟨t0, t1, t2, t3⟩ := tabs
      refine ⟨o1, o2, ?_, ?_, ?_, ?_, ?_, ?_⟩
      · simp only [hf, List.set_cons_zero]
        refine ⟨t0, t1, ⟨t2.1, t2.2, t2.3, t2.4, t2.5, t2.6, t2.7, t2.8, t2.9⟩, ?_⟩
        rw [t3, control_tab t2]
        rfl
      · simp only [hf, List.set_cons_zero]; exact ord
      · simp only [hf, List.set_cons_zero]; exact sys
      · simp only [hf, List.set_cons_zero]
        obtain ⟨a, as', rfl, d1, d2⟩ := data.head
        exact ⟨d1, d2⟩
      · unfold Top
        simp only [hf, List.set_cons_zero]
        exact ⟨fun _ => hex, fun _ => trivial, top.2.2.1, top.2.2.2.1, top.2.2.2.2⟩
      · intro x hx
        rcases List.mem_or_eq_of_mem_set hx with hx | rfl
        · exact ph x hx
        · intro r' hr'
          simp only [Phase.handle.injEq] at hr'
          subst hr'
          rw [List.nodup_cons] at c1
          exact ⟨c1.2, fun hc => absurd hc c1.1, fun n hn => c3 n (List.mem_cons_of_mem _ hn)⟩
    · rename_i n r hph
      split_ifs at h with hne
      simp only [Option.some.injEq] at h
      subst h
      obtain ⟨c1, c2, c3⟩ := ph f hm _ hph
      rw [List.nodup_cons] at c1
      obtain ⟨r1, r2, r3⟩ := Data.read n s.frames as s.buf _ _ i f ord hg data
      have mid : Inv base bsys { s with
          pipes := Function.update s.pipes (f.pipe n) ((s.pipes (f.pipe n)).drop chunk),
          streams := Function.update s.streams (f.new n) (s.streams (f.new n) ++ [.c ((s.pipes (f.pipe n)).take chunk)]),
          frames := s.frames.set i { f with phase := .handle r } } as := by
        have hs : Same f { f with phase := .handle r } := rfl
        refine ⟨o1, o2, tabs.set hs _ i _ hg, ord.set hs _ i _ _ hg, sys.set hs _ i _ hg, r1.set hs _ _ _ i hg, ?_, ?_⟩
        · refine Top.set (s := { s with
            pipes := Function.update s.pipes (f.pipe n) ((s.pipes (f.pipe n)).drop chunk),
            streams := Function.update s.streams (f.new n) (s.streams (f.new n) ++ [.c ((s.pipes (f.pipe n)).take chunk)]) }) hs hg ?_
          unfold Top at top ⊢
          simp only
          cases hf : s.frames with
          | nil => trivial
          | cons g fs =>
            rw [hf] at top
            simp only at top ⊢
            refine ⟨top.1, top.2.1, top.2.2.1, top.2.2.2.1, fun hd k => ?_⟩
            have := top.2.2.2.2 hd k
            by_cases hk : g.pipe k = f.pipe n
            · rw [hk, Function.update_self]
              rw [hk] at this
              rw [this]
              rfl
            · rw [Function.update_of_ne hk]
              exact this
        · intro x hx
          obtain ⟨j, hj, hxj⟩ := List.mem_iff_getElem.mp hx
          have hx' : (s.frames.set i { f with phase := .handle r })[j]? = some x := by rw [List.getElem?_eq_getElem hj]; exact congrArg some hxj
          by_cases hij : i = j
          · subst hij
            rw [List.getElem?_set_self (by simpa using hj)] at hx'
            simp only [Option.some.injEq] at hx'
            subst hx'
            intro r' hr'
            simp only [Phase.handle.injEq] at hr'
            subst hr'
            refine ⟨c1.2, fun hc => c2 (List.mem_cons_of_mem _ hc), fun k hk => ?_⟩
            have hkn : k ≠ n := fun e => c1.1 (e ▸ hk)
            show Function.update s.pipes (f.pipe n) _ (f.pipe k) ≠ []
            rw [Function.update_of_ne (fun e => hkn (pipe_inj f e))]
            exact c3 k (List.mem_cons_of_mem _ hk)
          · rw [List.getElem?_set_ne hij] at hx'
            refine (ph x (List.mem_of_getElem? hx')).congr (fun k hk => ?_)
            show Function.update s.pipes (f.pipe n) _ (x.pipe k) ≠ []
            rw [Function.update_of_ne (Ordered.pipe_ne s.frames _ _ j i x f ord hx' hg (Ne.symm hij) k n)]
            exact hk
      exact mid

theorem inv_run (m : Mach) (base : Table) (bsys : Name → Nat) : ∀ (es : List Ev) (s s' : St) (as : List Acc), Inv base bsys s as → run m s es = some s' →
    Inv base bsys s' (es.foldl printed as)
  | [], s, s', as, hi, h => by simp only [run, Option.some.injEq] at h; subst h; exact hi
  | e :: es, s, s', as, hi, h => by
    simp only [run] at h
    cases hs : step m s e with
    | none => rw [hs] at h; cases h
    | some s1 =>
      rw [hs] at h
      exact inv_run m base bsys es s1 s' _ (inv_step m base bsys s s1 as hi e hs) h

end NBK.Capture
