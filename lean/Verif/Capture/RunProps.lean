import Verif.Capture.EndProps

/-! # Captured output (C138): failing blocks, messages, cases -/
set_option linter.unusedSimpArgs false
set_option synthInstance.maxSize 1000
set_option synthInstance.maxHeartbeats 200000
namespace NBK.Capture

/-! ## A block that cannot begin -/

theorem ne_of_free' {t : Table} {k a : Nat} (hk : t k ≠ none) (h : t a = none) : k ≠ a := (ne_of_free hk h).symm

theorem setupPipe_error {m : Mach} {t t' : Table} {p real : Nat} (h : setupPipe m t p real = .error t') : ∀ k, t k ≠ none → t' k = t k := by
  unfold setupPipe dup pipe2 at h
  cases h0 : t real with
  | none =>
    rw [h0] at h
    simp only [Except.error.injEq] at h
    subst h
    exact fun _ _ => rfl
  | some x =>
    rw [h0] at h
    simp only at h
    cases h1 : lowest m t with
    | none =>
      rw [h1] at h
      simp only [Except.error.injEq] at h
      subst h
      exact fun _ _ => rfl
    | some a =>
      rw [h1] at h
      simp only at h
      have hk : ∀ k, t k ≠ none → Function.update t a (some x) k = t k := fun k hk => by
        rw [Function.update_of_ne]
        intro e
        rw [e] at hk
        exact hk (lowest_free h1)
      cases h2 : lowest m (Function.update t a (some x)) with
      | none =>
        rw [h2] at h
        simp only [Except.error.injEq] at h
        subst h
        exact hk
      | some b =>
        rw [h2] at h
        simp only at h
        cases h3 : lowest m (Function.update (Function.update t a (some x)) b (some (.rd p))) with
        | none =>
          rw [h3] at h
          simp only [Except.error.injEq] at h
          subst h
          exact hk
        | some c =>
          rw [h3] at h
          simp only at h
          cases h

/-- C138: when there are too few descriptors and a block cannot begin (OSError), every descriptor that was open is as it was, except that descriptor 1 may have been left on the pipe. -/
theorem setup_failed_partial (m : Mach) (t t' : Table) (p q : Nat) (old : Name → Nat) (h1 : t 1 ≠ none) (h : setup m t p q old = .error t') :
    (∀ k, t k ≠ none → k ≠ 1 → t' k = t k) ∧ (t' 1 = t 1 ∨ t' 1 = some (.wr (p + 1))) := by
  unfold setup at h
  cases e1 : pipe2 m t p with
  | error x =>
    rw [e1] at h
    simp only [Except.error.injEq] at h
    subst h
    unfold pipe2 at e1
    cases a : lowest m t with
    | none =>
      rw [a] at e1
      simp only [Except.error.injEq] at e1
      subst e1
      exact ⟨fun _ _ _ => rfl, .inl rfl⟩
    | some r =>
      rw [a] at e1
      simp only at e1
      cases b : lowest m (Function.update t r (some (.rd p))) with
      | none =>
        rw [b] at e1
        simp only [Except.error.injEq] at e1
        subst e1
        exact ⟨fun _ _ _ => rfl, .inl rfl⟩
      | some w => rw [b] at e1; simp only at e1; cases e1
  | ok v =>
    obtain ⟨cr, cw, t1⟩ := v
    rw [e1] at h
    simp only at h
    obtain ⟨a1, a2, a3, a4⟩ := pipe2_ok e1
    have k1 : ∀ k, t k ≠ none → t1 k = t k := fun k hk => by
      rw [a4, Function.update_of_ne (ne_of_free' hk a2), Function.update_of_ne (ne_of_free' hk a1)]
    cases e2 : setupPipe m t1 (p + 1) 1 with
    | error x =>
      rw [e2] at h
      simp only [Except.error.injEq] at h
      subst h
      have := setupPipe_error e2
      refine ⟨fun k hk _ => ?_, .inl ?_⟩
      · rw [this k (by rw [k1 k hk]; exact hk), k1 k hk]
      · rw [this 1 (by rw [k1 1 h1]; exact h1), k1 1 h1]
    | ok v =>
      obtain ⟨s1, r1, t2⟩ := v
      rw [e2] at h
      simp only at h
      obtain ⟨b1, b2, b3, b4, b5⟩ := setupPipe_ok e2
      have k2 : ∀ k, t k ≠ none → k ≠ 1 → t2 k = t k := fun k hk hk1 => by
        have h' := hk
        rw [← k1 k hk] at h'
        rw [b5, Function.update_of_ne hk1, Function.update_of_ne (ne_of_free' h' b3), Function.update_of_ne (ne_of_free' h' b2), k1 k hk]
      have k3 : t2 1 = some (.wr (p + 1)) := by rw [b5, Function.update_self]
      cases e3 : setupPipe m t2 (p + 2) 2 with
      | error x =>
        rw [e3] at h
        simp only [Except.error.injEq] at h
        subst h
        have := setupPipe_error e3
        refine ⟨fun k hk hk1 => ?_, .inr ?_⟩
        · rw [this k (by rw [k2 k hk hk1]; exact hk), k2 k hk hk1]
        · rw [this 1 (by rw [k3]; simp), k3]
      | ok v => rw [e3] at h; simp only at h; cases h

/-- A process with the three descriptors. -/
def startFds : Table := fun k => if k < 3 then some (.file k) else none

/-- C138 (negation, finding): with one descriptor too few for the pipe of stderr, descriptor 1 is left on a pipe that nobody reads. -/
theorem setup_leaves_stdout : ∃ t', setup ⟨8, 4, 4⟩ startFds 0 0 (fun _ => 0) = .error t' ∧ startFds 1 = some (.file 1) ∧ t' 1 = some (.wr 1) :=
  ⟨_, rfl, rfl, by decide⟩

/-- C138 (negation, finding): `_run` then raises UnboundLocalError, not the RuntimeError with the message. -/
theorem unbound_out (dec : List Byte → List Char) (msg : List Char) (out err : List Piece) :
    result dec false (.exc msg) out err = .unbound ∧ ∀ a b c, result dec false (.exc msg) out err ≠ .runtime a b c := ⟨rfl, fun _ _ _ h => by cases h⟩

/-! ## The message -/

theorem text_of_bytes (dec : List Byte → List Char) (hd : ∀ a b, dec (a ++ b) = dec a ++ dec b) : ∀ (l : List Piece), textsOf l = [] → text dec l = dec (bytesOf l)
  | [], _ => by
    have := congrArg List.length (hd [] [])
    simp only [List.append_nil, List.length_append] at this
    show [] = dec []
    exact (List.length_eq_zero_iff.mp (by omega)).symm
  | .c b :: l, h => by
    have ih := text_of_bytes dec hd l h
    show dec b ++ text dec l = dec (b ++ bytesOf l)
    rw [ih, hd]
  | .py t :: l, h => by simp [textsOf] at h

/-- C138: `_run` of a callable whose function fails with an `Exception`: when bytes are decoded one by one (as ASCII or Latin-1) and Python prints nothing, the RuntimeError has the message of the exception and
exactly what C printed to stdout and to stderr, whatever the threads did. For UTF-8 this is false, see `message_depends`. -/
theorem message_partial (m : Mach) (s s0 s3 : St) (h1 : s.fds 1 ≠ none) (h2 : s.fds 2 ≠ none) (hf : s.frames = []) (before body : List Ev) (hb : run m s before = some s0)
    (hn : nesting 0 body = some 0) (h : run m s0 (.enter :: (body ++ [.leave])) = some s3) (dec : List Byte → List Char) (hd : ∀ a b, dec (a ++ b) = dec a ++ dec b)
    (hp : ∀ n, (own body).texts n = []) (msg : List Char) :
    result dec true (.exc msg) (s3.streams s0.nstreams) (s3.streams (s0.nstreams + 1)) = .runtime msg (dec ((own body).bytes .out)) (dec ((own body).bytes .err)) := by
  obtain ⟨-, -, -, -, -, -, -, b1, b2, b3, b4⟩ := block m s s0 s3 h1 h2 hf before body hb hn h
  show Res.runtime msg (text dec _) (text dec _) = _
  rw [text_of_bytes dec hd _ (b3.trans (hp .out)), text_of_bytes dec hd _ (b4.trans (hp .err)), b1, b2]

/-- UTF-8 with `'replace'`, up to two bytes. -/
def utf8 : List Byte → List Char
  | [] => []
  | [a] => [if a < 128 then Char.ofNat a else Char.ofNat 0xFFFD]
  | a :: b :: l =>
    if a < 128 then Char.ofNat a :: utf8 (b :: l)
    else if 0xC2 ≤ a ∧ a ≤ 0xDF ∧ 0x80 ≤ b ∧ b ≤ 0xBF then Char.ofNat ((a - 0xC0) * 64 + (b - 0x80)) :: utf8 l
    else Char.ofNat 0xFFFD :: utf8 (b :: l)

/-- A process without blocks. -/
def start : St := ⟨startFds, 0, fun _ => [], fun _ => [], fun _ => [], 1, fun _ => [], fun _ => 0, [], none⟩

/-- The two bytes of an e with an acute accent are printed, then the thread reads. -/
def together : List Ev := [.call false [(.out, 0xC3), (.out, 0xA9)], .put .out 0xC3, .put .out 0xA9, .drain .out, .drain .out, .ret, .finish] ++ List.replicate 9 (.thread 0)
/-- The thread reads after each of them. -/
def apart : List Ev := [.call false [(.out, 0xC3), (.out, 0xA9)], .put .out 0xC3, .drain .out] ++ List.replicate 4 (.thread 0) ++ [.put .out 0xA9, .drain .out, .ret, .finish] ++ List.replicate 10 (.thread 0)

/-- The message after a block. -/
def messageOf (body : List Ev) : Option Res := (run ⟨16, 4, 4⟩ start (.enter :: (body ++ [.leave]))).map fun s => result utf8 true (.exc []) (s.streams 1) (s.streams 2)

/-- C138 (negation, finding): each piece is decoded by itself (wurlitzer.py 110-117), so that a character of two bytes is lost when the thread reads between them: the same program has two messages. -/
theorem message_depends : messageOf together = some (.runtime [] [Char.ofNat 0xE9] []) ∧ messageOf apart = some (.runtime [] [Char.ofNat 0xFFFD, Char.ofNat 0xFFFD] []) ∧
    (own together).bytes .out = (own apart).bytes .out := by
  refine ⟨by decide +kernel, by decide +kernel, by decide⟩

/-! ## Concrete cases -/

/-- `block`, `message_partial`: both executions meet the hypotheses. -/
example : start.fds 1 ≠ none ∧ start.fds 2 ≠ none ∧ start.frames = [] ∧ run ⟨16, 4, 4⟩ start [] = some start ∧ nesting 0 apart = some 0 ∧
    (run ⟨16, 4, 4⟩ start (.enter :: (apart ++ [.leave]))).isSome = true ∧ (∀ n, (own apart).texts n = []) ∧ (own apart).bytes .out = [0xC3, 0xA9] := by
  refine ⟨by decide, by decide, rfl, rfl, by decide, by decide +kernel, fun n => ?_, by decide⟩
  cases n <;> decide

/-- A block in a block: C prints in both, Python in the inner one, the outer thread reads late. -/
def inside : List Ev :=
  [.call false [(.out, 65)], .put .out 65, .drain .out, .ret, .enter, .py .err ['x'], .call true [(.err, 66)], .put .err 66, .ret, .drain .err, .finish] ++ List.replicate 9 (.thread 0) ++
    [.leave, .call false [(.out, 67)], .put .out 67, .ret, .drain .out, .thread 0, .finish] ++ List.replicate 8 (.thread 0)

example : nesting 0 inside = some 0 ∧ (own inside).bytes .out = [65, 67] ∧ (own inside).bytes .err = [] ∧ (own inside).texts .err = [] ∧
    (run ⟨16, 4, 4⟩ start (.enter :: (inside ++ [.leave]))).map (fun s => (s.streams 1, s.streams 2, s.streams 3, s.streams 4)) =
      some ([.c [65, 67]], [], [], [.py ['x'], .c [66]]) := by
  refine ⟨by decide, by decide, by decide, by decide, by decide +kernel⟩

/-- `block_ends`: a block that waits, with a byte in the pipe. -/
example : (run ⟨16, 4, 4⟩ start [.enter, .call false [(.out, 65)], .put .out 65, .ret, .drain .out, .finish]).map (fun s => (s.waiting, s.pipes 1)) = some (true, [65]) := by decide +kernel

/-- `call_ends_partial`: three bytes fit into the pipe, not into the buffer. -/
example : (run ⟨16, 4, 1⟩ start [.enter, .call true [(.out, 65), (.out, 66), (.out, 67)]]).map (fun s => (s.call, s.frames.length, s.buf .out, s.pipes 1)) =
      some (some (true, [(.out, 65), (.out, 66), (.out, 67)]), 1, [], []) ∧ count .out [(.out, 65), (.out, 66), (.out, 67)] + 0 + 0 ≤ 4 := by
  refine ⟨by decide +kernel, by decide⟩

/-- `can_hang`, `never_left`, `call_never_ends`: the thread is in its first `fflush`, the pipe holds two bytes. -/
example : (run ⟨16, 2, 1⟩ start [.enter, .call true ([1, 2, 3, 4].map (Prod.mk .out))]).map (fun s => (s.frames.map fun f => (f.phase, f.pipe .out), s.buf .out, s.pipes 1)) =
      some ([(.flush .out, 1)], [], []) ∧ 2 + 1 < count .out ([1, 2, 3, 4].map (Prod.mk .out)) := by
  refine ⟨by decide +kernel, by decide⟩

example : (run ⟨16, 2, 1⟩ start [.enter, .call false [(.out, 1), (.out, 2), (.out, 3)], .put .out 1, .drain .out, .put .out 2, .drain .out, .put .out 3]).map
    (fun s => (s.frames.map fun f => f.phase, s.buf .out, s.pipes 1)) = some ([.flush .out], [3], [1, 2]) := by decide +kernel

/-- `setup_failed_partial`. -/
example : ∃ t', setup ⟨5, 4, 4⟩ startFds 0 0 (fun _ => 0) = .error t' ∧ startFds 1 ≠ none ∧ t' 1 = startFds 1 := ⟨_, rfl, by decide, by decide⟩

end NBK.Capture
