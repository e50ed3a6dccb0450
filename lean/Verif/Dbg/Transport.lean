import Verif.Asm.Lexer
/-!
# How the debugger is reached (C72)

`/repo/src/dbg/transports/from_str.c`, `stream.c` and `file.c` make a file descriptor of a string such as
`unix-listen:name`; `/repo/src/dbg-wrapper.c` starts a program with this descriptor, whose number it passes in the environment
(`/repo/src/cli.c:125-136`, `/repo/src/linux/platform.c:189-202`). The kernel is arbitrary.
-/
namespace Buxn.Dbg.Transport
open Buxn.Asm (Str ch str)

/-! ## Model: the kernel -/

/-- The part of a `struct sockaddr` that names a peer: `sun_path`, as far as the given length reaches, or the address and the two
bytes of `sin_port` as they lie in memory. -/
inductive Addr
  | unix (path : Str)
  | inet (ip : List Byte) (p0 p1 : Byte)
  deriving DecidableEq, Repr

/-- Calls to the system, with their results. The `accept` that was interrupted has none. -/
inductive Call
  | openFile (path : Str) (fd : Int)
  | socket (fd : Int)
  | bind (fd : Int) (a : Addr) (ok : Bool)
  | listen (fd : Int) (ok : Bool)
  | accept (fd : Int) (r : Option Int)
  | connect (fd : Int) (a : Addr) (ok : Bool)
  | resolve (node service : Str) (r : Option Addr)
  | close (fd : Int)
  deriving DecidableEq, Repr

/-- The kernel and the resolver: any results, which depend on all that was called before. -/
structure Kernel where
  openFile : List Call → Str → Int
  socket : List Call → Int
  bind : List Call → Int → Addr → Bool
  listen : List Call → Int → Bool
  accept : List Call → Int → Option Int
  connect : List Call → Int → Addr → Bool
  resolve : List Call → Str → Str → Option Addr

/-- The result of a function, and the calls up to then. The result `none` means that the program still waits for a connection. -/
abbrev Done := Option Int × List Call

/-! ## Model: sockets -/

/-- The loop in `buxn_dbg_transport_stream_listen`, `stream.c:23-31`, for at most `n` interruptions. -/
def acceptLoop (K : Kernel) (fd : Int) : Nat → List Call → Done
  | 0, t => (none, t)
  | n + 1, t =>
    match K.accept t fd with
    | none => acceptLoop K fd n (t ++ [.accept fd none])
    | some r => (some r, t ++ [.accept fd (some r), .close fd])

/-- `buxn_dbg_transport_stream_listen`, `stream.c:10-32`. -/
def streamListen (K : Kernel) (n : Nat) (a : Addr) (t : List Call) : Done :=
  let fd := K.socket t
  let t := t ++ [.socket fd]
  let ok := K.bind t fd a
  let t := t ++ [.bind fd a ok]
  if ok = false then (some (-1), t ++ [.close fd])
  else
    let ok := K.listen t fd
    let t := t ++ [.listen fd ok]
    if ok = false then (some (-1), t ++ [.close fd])
    else acceptLoop K fd n t

/-- `buxn_dbg_transport_stream_connect`, `stream.c:34-43`. -/
def streamConnect (K : Kernel) (a : Addr) (t : List Call) : Done :=
  let fd := K.socket t
  let t := t ++ [.socket fd]
  let ok := K.connect t fd a
  let t := t ++ [.connect fd a ok]
  if ok then (some fd, t) else (some (-1), t ++ [.close fd])

/-- `sizeof(addr.sun_path)` on Linux. -/
def SUN_PATH : Nat := 108

/-- `memcpy(buf + at, src, strlen(src))` into a buffer. -/
def copyInto (buf : List Byte) (pos : Nat) (src : Str) : Res (List Byte) :=
  if pos + src.length ≤ buf.length then .ok (buf.take pos ++ src ++ buf.drop (pos + src.length)) else .error .oob

/-- `buf[i] = b`. -/
def setAt (buf : List Byte) (i : Nat) (b : Byte) : Res (List Byte) := if i < buf.length then .ok (buf.set i b) else .error .oob

/-- The address of `unix-…`, `stream.c:47-51` and `59-63`; `none`: the name is too long. -/
def unixAddr (name : Str) : Res (Option Addr) :=
  if SUN_PATH ≤ name.length then .ok none
  else do
    let b ← copyInto (List.replicate SUN_PATH 0) 0 name
    let b ← setAt b name.length 0
    return some (.unix (b.take (name.length + 1)))

/-- The address of `abstract-…`, `stream.c:71-75` and `83-87`. -/
def abstractAddr (name : Str) : Res (Option Addr) :=
  if SUN_PATH ≤ name.length then .ok none
  else do
    let b ← copyInto (List.replicate SUN_PATH 0) 1 name
    let b ← setAt b 0 0
    return some (.unix (b.take (name.length + 1)))

/-- `stream.c:45-92`: what follows if there is an address. -/
def orFail (a : Res (Option Addr)) (f : Addr → Done) (t : List Call) : Res Done :=
  match a with
  | .error e => .error e
  | .ok none => .ok (some (-1), t)
  | .ok (some a) => .ok (f a)

/-! ## Model: the string -/

/-- `parse_flag`, `bflag.h:6-14`. -/
def parseFlag (arg flag : Str) : Option Str := if flag.isPrefixOf arg then some (arg.drop flag.length) else none

/-- `strtol(s, NULL, 10)` with a `long` of 64 bits, in the C locale; `none` if it sets `errno`. -/
def strtol (s : Str) : Option Int :=
  let t := s.dropWhile fun c => c = 32 || (9 ≤ c.toNat && c.toNat ≤ 13)
  let neg := t.head? = some (ch '-')
  let t := if t.head? = some (ch '-') ∨ t.head? = some (ch '+') then t.drop 1 else t
  let n : Nat := (t.takeWhile fun c => 48 ≤ c.toNat && c.toNat ≤ 57).foldl (fun n c => 10 * n + (c.toNat - 48)) 0
  let v : Int := if neg then -n else n
  if v < -(2 ^ 63) ∨ 2 ^ 63 ≤ v then none else some v

/-- A string in memory: up to the first zero, which must come before the end of the buffer. -/
def cString : List Byte → Res Str
  | [] => .error .oob
  | b :: bs => if b = 0 then .ok [] else (cString bs).map (b :: ·)

/-- `sizeof("255.255.255.255:65535")`. -/
def TCP_BUF : Nat := 22

/-- `tcp-connect:`, `from_str.c:26-50`. `junk` is what the buffer holds before, and `buf` is not terminated by the code. -/
def tcpConnect (K : Kernel) (junk : Nat → Byte) (arg : Str) (t : List Call) : Res Done :=
  if TCP_BUF < arg.length then .ok (some (-1), t)
  else
    let buf := arg ++ (List.range (TCP_BUF - arg.length)).map fun i => junk (arg.length + i)
    let i := (arg.takeWhile (· ≠ ch ':')).length
    if arg.length ≤ i then .ok (some (-1), t)
    else do
      let node ← cString (buf.set i 0)
      let service ← cString (buf.drop (i + 1))
      let r := K.resolve t node service
      let t := t ++ [.resolve node service r]
      return match r with
        | none => (some (-1), t)
        | some a => streamConnect K a t

/-- `.sin_port = port` on a machine whose low byte comes first. -/
def portBytes (port : Int) : Byte × Byte :=
  let p : Short := BitVec.ofInt 16 port
  (BitVec.ofNat 8 (p.toNat % 256), BitVec.ofNat 8 (p.toNat / 256))

/-- `tcp-listen:`, `from_str.c:51-64`. -/
def tcpListen (K : Kernel) (n : Nat) (arg : Str) (t : List Call) : Res Done :=
  match strtol arg with
  | none => .ok (some (-1), t)
  | some port => .ok (streamListen K n (.inet [0, 0, 0, 0] (portBytes port).1 (portBytes port).2) t)

/-- `buxn_dbg_transport_from_str`, `from_str.c:12-70`. -/
def fromStr (K : Kernel) (n : Nat) (junk : Nat → Byte) (s : Str) (t : List Call) : Res Done :=
  match parseFlag s (str "file:") with
  | some arg => .ok (some (K.openFile t arg), t ++ [.openFile arg (K.openFile t arg)])
  | none =>
    match parseFlag s (str "unix-connect:") with
    | some arg => orFail (unixAddr arg) (fun a => streamConnect K a t) t
    | none =>
      match parseFlag s (str "unix-listen:") with
      | some arg => orFail (unixAddr arg) (fun a => streamListen K n a t) t
      | none =>
        match parseFlag s (str "abstract-connect:") with
        | some arg => orFail (abstractAddr arg) (fun a => streamConnect K a t) t
        | none =>
          match parseFlag s (str "abstract-listen:") with
          | some arg => orFail (abstractAddr arg) (fun a => streamListen K n a t) t
          | none =>
            match parseFlag s (str "tcp-connect:") with
            | some arg => tcpConnect K junk arg t
            | none =>
              match parseFlag s (str "tcp-listen:") with
              | some arg => tcpListen K n arg t
              | none => .ok (some (-1), t)

/-! ## Model: the wrapper -/

/-- `main` of `dbg-wrapper.c`, lines 12-50: what the arguments ask for. -/
inductive Asked
  | help
  | nothing
  | run (transport : Str) (command : List Str)
  deriving DecidableEq, Repr

/-- The loop in `dbg-wrapper.c:14-45`, and the check after it. -/
def parseArgs : List Str → Str → Asked
  | [], _ => .nothing
  | arg :: args, transport =>
    if (parseFlag arg (str "--help")).isSome then .help
    else match parseFlag arg (str "-transport=") with
      | some v => parseArgs args v
      | none =>
        if arg = str "--" then (if args = [] then .nothing else .run transport args)
        else .run transport (arg :: args)

/-- `%d`. -/
def decimal (n : Int) : Str := if n < 0 then ch '-' :: (Nat.toDigits 10 n.natAbs).map ch else (Nat.toDigits 10 n.natAbs).map ch

/-- `snprintf` into a buffer of `sizeof("2147483647")` bytes, `dbg-wrapper.c:60-61`. -/
def fdText (fd : Int) : Str := (decimal fd).take 10

/-- What the wrapper does in the end, `dbg-wrapper.c:52-65`: it becomes the command, with `BUXN_DBG_FD` in its environment, or
returns. -/
inductive End
  | exec (command : List Str) (var : Str)
  | exit (code : Nat)
  | waiting
  deriving DecidableEq, Repr

def wrapper (K : Kernel) (n : Nat) (junk : Nat → Byte) (args : List Str) : Res (End × List Call) :=
  match parseArgs args (str "abstract-listen:buxn/vm") with
  | .help => .ok (.exit 0, [])
  | .nothing => .ok (.exit 1, [])
  | .run transport command =>
    match fromStr K n junk transport [] with
    | .error e => .error e
    | .ok (none, t) => .ok (.waiting, t)
    | .ok (some fd, t) => if fd < 0 then .ok (.exit 1, t) else .ok (.exec command (fdText fd), t)

/-- `cli.c:125-136`, `platform.c:189-202`: the descriptor that the debugger is attached to, if any. -/
def attach (env : Option Str) : Option Int :=
  match env with
  | none => none
  | some s => match strtol s with
    | none => none
    | some fd => if 0 ≤ fd ∧ fd < 2 ^ 31 - 1 then some fd else none

/-! ## Specification -/

namespace Spec

/-- The descriptors that calls have left open. -/
def held : List Call → List Int
  | [] => []
  | .openFile _ fd :: t => if 0 ≤ fd then fd :: held t else held t
  | .socket fd :: t => if 0 ≤ fd then fd :: held t else held t
  | .accept _ (some fd) :: t => if 0 ≤ fd then fd :: held t else held t
  | .close fd :: t => (held t).erase fd
  | _ :: t => held t

/-- The calls are listed from the first one; what is open depends on the last ones first. -/
def left (t : List Call) : List Int := held t.reverse

/-- One attempt to connect to an address: a socket, which is returned if the attempt succeeds and closed if not. -/
def Connects (a : Addr) (r : Int) (t : List Call) : Prop :=
  ∃ fd, t = [.socket fd, .connect fd a true] ∧ r = fd ∨ t = [.socket fd, .connect fd a false, .close fd] ∧ r = -1

/-- A server at an address for a single connection: the socket that listens is closed in the end, and the connection is returned
(or -1). -/
def Serves (a : Addr) (r : Int) (t : List Call) : Prop :=
  ∃ fd, t = [.socket fd, .bind fd a false, .close fd] ∧ r = -1 ∨
    t = [.socket fd, .bind fd a true, .listen fd false, .close fd] ∧ r = -1 ∨
    ∃ k, t = [.socket fd, .bind fd a true, .listen fd true] ++ List.replicate k (.accept fd none) ++ [.accept fd (some r), .close fd]

/-- The port that two bytes of a socket address stand for: the high byte comes first. -/
def portOf (p0 p1 : Byte) : Nat := p0.toNat * 256 + p1.toNat

def schemes : List Str := [str "file:", str "unix-connect:", str "unix-listen:", str "abstract-connect:", str "abstract-listen:",
  str "tcp-connect:", str "tcp-listen:"]

/-- A decimal number as a string. -/
def number (n : Nat) : Str := (Nat.toDigits 10 n).map ch

end Spec
open Spec

/-! ## Addresses -/

theorem unixAddr_eq (name : Str) : unixAddr name = .ok (if SUN_PATH ≤ name.length then none else some (.unix (name ++ [0]))) := by
  unfold unixAddr
  split
  · rfl
  · rename_i h
    have h' : name.length < 108 := by unfold SUN_PATH at h; omega
    unfold copyInto setAt
    rw [if_pos (by rw [List.length_replicate]; unfold SUN_PATH; omega)]
    simp only [bind, Except.bind, pure, Except.pure]
    rw [if_pos (by simp [SUN_PATH]; omega)]
    dsimp only
    congr 3
    have : List.drop (0 + name.length) (List.replicate SUN_PATH (0 : Byte)) = 0 :: List.replicate (107 - name.length) 0 := by
      rw [List.drop_replicate, ← List.replicate_succ]
      congr 1
      unfold SUN_PATH
      omega
    rw [this]
    simp [List.set_append, List.take_append, List.take_succ_cons, List.take_of_length_le]

theorem abstractAddr_eq (name : Str) : abstractAddr name = .ok (if SUN_PATH ≤ name.length then none else some (.unix (0 :: name))) := by
  unfold abstractAddr
  split
  · rfl
  · rename_i h
    have h' : name.length < 108 := by unfold SUN_PATH at h; omega
    unfold copyInto setAt
    rw [if_pos (by rw [List.length_replicate]; unfold SUN_PATH; omega)]
    simp only [bind, Except.bind, pure, Except.pure]
    rw [if_pos (by simp [SUN_PATH])]
    dsimp only
    congr 3
    simp [SUN_PATH, List.take_replicate]

/-! ## Sockets -/

theorem acceptLoop_spec (K : Kernel) (fd : Int) (n : Nat) (t : List Call) :
    (∃ k r, acceptLoop K fd n t = (some r, t ++ List.replicate k (.accept fd none) ++ [.accept fd (some r), .close fd])) ∨
    acceptLoop K fd n t = (none, t ++ List.replicate n (.accept fd none)) := by
  induction n generalizing t with
  | zero => right; simp [acceptLoop]
  | succ n ih =>
    unfold acceptLoop
    split
    · rcases ih (t ++ [.accept fd none]) with ⟨k, r, h⟩ | h
      · left
        exact ⟨k + 1, r, by rw [h]; simp [List.replicate_succ]⟩
      · right
        rw [h]; simp [List.replicate_succ]
    · rename_i r h
      left
      exact ⟨0, r, by simp⟩

theorem streamConnect_spec (K : Kernel) (a : Addr) (t : List Call) : ∃ r u, streamConnect K a t = (some r, t ++ u) ∧ Connects a r u := by
  unfold streamConnect
  dsimp only
  split
  · rename_i h
    exact ⟨_, [_, _], by rw [List.append_assoc]; rfl, _, .inl ⟨by rw [h], rfl⟩⟩
  · rename_i h
    rw [Bool.not_eq_true] at h
    exact ⟨_, [_, _, _], by rw [List.append_assoc, List.append_assoc]; rfl, _, .inr ⟨by rw [h], rfl⟩⟩

theorem streamListen_spec (K : Kernel) (n : Nat) (a : Addr) (t : List Call) :
    (∃ r u, streamListen K n a t = (some r, t ++ u) ∧ Serves a r u) ∨
    ∃ fd, streamListen K n a t = (none, t ++ ([.socket fd, .bind fd a true, .listen fd true] ++ List.replicate n (.accept fd none))) := by
  unfold streamListen
  dsimp only
  split
  · rename_i h
    left
    exact ⟨_, [_, _, _], by rw [List.append_assoc, List.append_assoc]; rfl, _, .inl ⟨by rw [h], rfl⟩⟩
  · rename_i h
    rw [Bool.not_eq_false] at h
    rw [h]
    split
    · rename_i h2
      rw [h2]
      left
      exact ⟨_, [_, _, _, _], by simp only [List.append_assoc]; rfl, _, .inr (.inl ⟨rfl, rfl⟩)⟩
    · rename_i h2
      rw [Bool.not_eq_false] at h2
      rw [h2]
      rcases acceptLoop_spec K (K.socket t) n (t ++ [.socket (K.socket t)] ++ [.bind (K.socket t) a true] ++ [.listen (K.socket t) true]) with ⟨k, r, e⟩ | e
      · left
        exact ⟨r, _, by rw [e]; simp only [List.append_assoc]; rfl, _, .inr (.inr ⟨k, rfl⟩)⟩
      · right
        refine ⟨K.socket t, ?_⟩
        rw [e]
        simp only [List.append_assoc]; rfl

/-! ## Descriptors -/

theorem left_connects {a : Addr} {r : Int} {t : List Call} (h : Connects a r t) : left t = if 0 ≤ r then [r] else [] := by
  obtain ⟨fd, ⟨rfl, rfl⟩ | ⟨rfl, rfl⟩⟩ := h
  · rfl
  · unfold left
    simp only [List.reverse_cons, List.reverse_nil, List.nil_append, List.cons_append, held]
    split <;> simp

theorem held_waiting (fd : Int) (k : Nat) (l : List Call) : held (List.replicate k (.accept fd none) ++ l) = held l := by
  induction k with
  | zero => rfl
  | succ k ih => rw [List.replicate_succ]; exact ih

theorem left_serves {a : Addr} {r : Int} {t : List Call} (h : Serves a r t) : left t = if 0 ≤ r then [r] else [] := by
  obtain ⟨fd, ⟨rfl, rfl⟩ | ⟨rfl, rfl⟩ | ⟨k, rfl⟩⟩ := h
  · unfold left
    simp only [List.reverse_cons, List.reverse_nil, List.nil_append, List.cons_append, held]
    split <;> simp
  · unfold left
    simp only [List.reverse_cons, List.reverse_nil, List.nil_append, List.cons_append, held]
    split <;> simp
  · unfold left
    have hX : held (List.replicate k (.accept fd none) ++ [.listen fd true] ++ [.bind fd a true] ++ [.socket fd]) = if 0 ≤ fd then [fd] else [] := by
      rw [List.append_assoc, List.append_assoc, held_waiting]; rfl
    simp only [List.reverse_append, List.reverse_cons, List.reverse_nil, List.nil_append, List.cons_append, List.reverse_replicate,
      held]
    rw [hX]
    by_cases h1 : 0 ≤ r <;> by_cases h2 : 0 ≤ fd <;> simp only [h1, h2, if_true, if_false]
    · by_cases e : r = fd
      · rw [e]; simp
      · simp [List.erase_cons, e]
    · have : r ≠ fd := by omega
      simp [List.erase_cons, this]
    · simp
    · simp

theorem connect_left (K : Kernel) (a : Addr) (r : Int) (t : List Call) (u : List Call) (hu : left u = []) (hr : ∃ n s x, u = [.resolve n s x] ∨ u = [])
    (e : streamConnect K a u = (some r, t)) : left t = if 0 ≤ r then [r] else [] := by
  obtain ⟨r', v, e', h⟩ := streamConnect_spec K a u
  rw [e] at e'
  cases e'
  rw [← left_connects h]
  unfold left
  obtain ⟨n, s, x, rfl | rfl⟩ := hr
  · have : ∀ l : List Call, held (l ++ [.resolve n s x]) = held l := by
      intro l
      induction l with
      | nil => rfl
      | cons c l ih =>
        rw [List.cons_append]
        cases c with
        | accept fd o => cases o <;> simp only [held, ih]
        | _ => simp only [held, ih]
    rw [List.reverse_append]
    exact this _
  · rfl

/-- **C72**, descriptors. Whatever the string and whatever the kernel answers: when the function returns, the descriptor it returns
is the only one it has left open; if it fails, there is none. -/
theorem C72_descriptors (K : Kernel) (n : Nat) (junk : Nat → Byte) (s : Str) (r : Int) (t : List Call)
    (h : fromStr K n junk s [] = .ok (some r, t)) : left t = if 0 ≤ r then [r] else [] := by
  have hc : ∀ x : Res (Option Addr), orFail x (fun a => streamConnect K a []) [] = .ok (some r, t) → left t = if 0 ≤ r then [r] else [] := by
    intro x hx
    unfold orFail at hx
    split at hx
    · cases hx
    · cases hx; rfl
    · exact connect_left K _ r t [] rfl ⟨[], [], none, .inr rfl⟩ (Except.ok.inj hx)
  have hl : ∀ a : Addr, streamListen K n a [] = (some r, t) → left t = if 0 ≤ r then [r] else [] := by
    intro a hx
    rcases streamListen_spec K n a [] with ⟨r', u, e, hs⟩ | ⟨fd, e⟩
    · rw [hx] at e
      cases e
      exact left_serves hs
    · rw [hx] at e
      cases e
  have hl' : ∀ x : Res (Option Addr), orFail x (fun a => streamListen K n a []) [] = .ok (some r, t) → left t = if 0 ≤ r then [r] else [] := by
    intro x hx
    unfold orFail at hx
    split at hx
    · cases hx
    · cases hx; rfl
    · exact hl _ (Except.ok.inj hx)
  unfold fromStr at h
  split at h
  · cases h
    unfold left
    simp [held]
  split at h
  · exact hc _ h
  split at h
  · exact hl' _ h
  split at h
  · exact hc _ h
  split at h
  · exact hl' _ h
  split at h
  · unfold tcpConnect at h
    split at h
    · cases h; rfl
    dsimp only at h
    split at h
    · cases h; rfl
    simp only [bind, Except.bind, pure, Except.pure] at h
    split at h
    · cases h
    split at h
    · cases h
    split at h
    · cases h; rfl
    · exact connect_left K _ r t _ rfl ⟨_, _, _, .inl rfl⟩ (Except.ok.inj h)
  split at h
  · unfold tcpListen at h
    split at h
    · cases h; rfl
    · exact hl _ (Except.ok.inj h)
  · cases h; rfl

/-! ## The schemes -/

theorem parseFlag_self (p s : Str) : parseFlag (p ++ s) p = some s := by
  unfold parseFlag
  rw [if_pos (List.isPrefixOf_iff_prefix.2 (List.prefix_append _ _)), List.drop_left]

/-- A string that differs from a flag in the first characters. -/
theorem parseFlag_other (p q s : Str) (k : Nat) (hp : k ≤ p.length) (hq : k ≤ q.length) (h : p.take k ≠ q.take k) : parseFlag (p ++ s) q = none := by
  unfold parseFlag
  rw [if_neg]
  rw [List.isPrefixOf_iff_prefix]
  rintro ⟨u, e⟩
  apply h
  have := congrArg (List.take k) e
  rw [List.take_append_of_le_length hq, List.take_append_of_le_length hp] at this
  exact this.symm

/-- **C72**, addresses. `unix-connect:` and `unix-listen:` use the socket with the given name, `abstract-connect:` and
`abstract-listen:` the abstract one; `file:` opens the file. No name is too long for the address: those of 108 bytes and more are
refused, without a call to the kernel. -/
theorem C72_addresses (K : Kernel) (n : Nat) (junk : Nat → Byte) (name : Str) :
    (∃ fd, fromStr K n junk (str "file:" ++ name) [] = .ok (some fd, [.openFile name fd])) ∧
    (name.length < 108 →
      (∃ r t, fromStr K n junk (str "unix-connect:" ++ name) [] = .ok (some r, t) ∧ Connects (.unix (name ++ [0])) r t) ∧
      (∃ r t, fromStr K n junk (str "abstract-connect:" ++ name) [] = .ok (some r, t) ∧ Connects (.unix (0 :: name)) r t) ∧
      (∃ r t, fromStr K n junk (str "unix-listen:" ++ name) [] = .ok (r, t) ∧ ∀ fd, r = some fd → Serves (.unix (name ++ [0])) fd t) ∧
      (∃ r t, fromStr K n junk (str "abstract-listen:" ++ name) [] = .ok (r, t) ∧ ∀ fd, r = some fd → Serves (.unix (0 :: name)) fd t)) ∧
    (108 ≤ name.length → ∀ p ∈ [str "unix-connect:", str "unix-listen:", str "abstract-connect:", str "abstract-listen:"],
      fromStr K n junk (p ++ name) [] = .ok (some (-1), [])) := by
  have e1 : fromStr K n junk (str "file:" ++ name) [] = .ok (some (K.openFile [] name), [.openFile name (K.openFile [] name)]) := by
    unfold fromStr
    rw [parseFlag_self]
    rfl
  have e2 : fromStr K n junk (str "unix-connect:" ++ name) [] = orFail (unixAddr name) (fun a => streamConnect K a []) [] := by
    unfold fromStr
    rw [parseFlag_other _ (str "file:") _ 1 (by decide) (by decide) (by decide), parseFlag_self]
  have e3 : fromStr K n junk (str "unix-listen:" ++ name) [] = orFail (unixAddr name) (fun a => streamListen K n a []) [] := by
    unfold fromStr
    rw [parseFlag_other _ (str "file:") _ 1 (by decide) (by decide) (by decide),
      parseFlag_other _ (str "unix-connect:") _ 6 (by decide) (by decide) (by decide), parseFlag_self]
  have e4 : fromStr K n junk (str "abstract-connect:" ++ name) [] = orFail (abstractAddr name) (fun a => streamConnect K a []) [] := by
    unfold fromStr
    rw [parseFlag_other _ (str "file:") _ 1 (by decide) (by decide) (by decide),
      parseFlag_other _ (str "unix-connect:") _ 1 (by decide) (by decide) (by decide),
      parseFlag_other _ (str "unix-listen:") _ 1 (by decide) (by decide) (by decide), parseFlag_self]
  have e5 : fromStr K n junk (str "abstract-listen:" ++ name) [] = orFail (abstractAddr name) (fun a => streamListen K n a []) [] := by
    unfold fromStr
    rw [parseFlag_other _ (str "file:") _ 1 (by decide) (by decide) (by decide),
      parseFlag_other _ (str "unix-connect:") _ 1 (by decide) (by decide) (by decide),
      parseFlag_other _ (str "unix-listen:") _ 1 (by decide) (by decide) (by decide),
      parseFlag_other _ (str "abstract-connect:") _ 10 (by decide) (by decide) (by decide), parseFlag_self]
  have serve : ∀ a : Addr, ∃ r t, Except.ok (ε := UB) (streamListen K n a []) = .ok (r, t) ∧ ∀ fd, r = some fd → Serves a fd t := by
    intro a
    rcases streamListen_spec K n a [] with ⟨r, u, e, hs⟩ | ⟨fd, e⟩
    · exact ⟨_, _, by rw [e], fun fd h => by cases h; exact hs⟩
    · exact ⟨_, _, by rw [e], fun fd h => by cases h⟩
  have join : ∀ a : Addr, ∃ r t, Except.ok (ε := UB) (streamConnect K a []) = .ok (some r, t) ∧ Connects a r t := by
    intro a
    obtain ⟨r, u, e, hs⟩ := streamConnect_spec K a []
    exact ⟨r, u, by rw [e]; rfl, hs⟩
  refine ⟨⟨_, e1⟩, fun h => ?_, fun h p hp => ?_⟩
  · have hn : ¬ SUN_PATH ≤ name.length := by unfold SUN_PATH; omega
    rw [e2, e3, e4, e5, unixAddr_eq, abstractAddr_eq, if_neg hn, if_neg hn]
    exact ⟨join _, join _, serve _, serve _⟩
  · have hn : SUN_PATH ≤ name.length := h
    simp only [List.mem_cons, List.not_mem_nil, or_false] at hp
    rcases hp with rfl | rfl | rfl | rfl
    · rw [e2, unixAddr_eq, if_pos hn]; rfl
    · rw [e3, unixAddr_eq, if_pos hn]; rfl
    · rw [e4, abstractAddr_eq, if_pos hn]; rfl
    · rw [e5, abstractAddr_eq, if_pos hn]; rfl

/-- **C72**, other strings are refused, without a call to the kernel. -/
theorem C72_unknown (K : Kernel) (n : Nat) (junk : Nat → Byte) (s : Str) (h : ∀ p ∈ schemes, ¬ p <+: s) :
    fromStr K n junk s [] = .ok (some (-1), []) := by
  have hn : ∀ p ∈ schemes, parseFlag s p = none := by
    intro p hp
    unfold parseFlag
    rw [if_neg]
    rw [List.isPrefixOf_iff_prefix]
    exact h p hp
  simp only [schemes, List.mem_cons, List.not_mem_nil, or_false, forall_eq_or_imp, forall_eq] at hn
  obtain ⟨h1, h2, h3, h4, h5, h6, h7⟩ := hn
  unfold fromStr
  rw [h1, h2, h3, h4, h5, h6, h7]

/-- **C72**, violated: the scheme `fifo:`, which the header announces (`from_str.h:9`), is not known. -/
theorem C72_fifo_violated (K : Kernel) (n : Nat) (junk : Nat → Byte) (path : Str) :
    fromStr K n junk (str "fifo:" ++ path) [] = .ok (some (-1), []) := by
  apply C72_unknown
  intro p hp
  simp only [schemes, List.mem_cons, List.not_mem_nil, or_false] at hp
  have : ∀ q : Str, 2 ≤ q.length → q.take 2 ≠ str "fi" ∨ 3 ≤ q.length ∧ q.take 3 ≠ str "fif" → ¬ q <+: str "fifo:" ++ path := by
    rintro q hl hq ⟨u, e⟩
    rcases hq with hq | ⟨h3, hq⟩
    · apply hq
      have := congrArg (List.take 2) e
      rw [List.take_append_of_le_length hl] at this
      exact this
    · apply hq
      have := congrArg (List.take 3) e
      rw [List.take_append_of_le_length h3] at this
      exact this
  rcases hp with rfl | rfl | rfl | rfl | rfl | rfl | rfl <;> exact this _ (by decide) (by decide)

/-! ## TCP -/

theorem tcp_connect_eq (K : Kernel) (n : Nat) (junk : Nat → Byte) (arg : Str) :
    fromStr K n junk (str "tcp-connect:" ++ arg) [] = tcpConnect K junk arg [] := by
  unfold fromStr
  rw [parseFlag_other _ (str "file:") _ 1 (by decide) (by decide) (by decide),
    parseFlag_other _ (str "unix-connect:") _ 1 (by decide) (by decide) (by decide),
    parseFlag_other _ (str "unix-listen:") _ 1 (by decide) (by decide) (by decide),
    parseFlag_other _ (str "abstract-connect:") _ 1 (by decide) (by decide) (by decide),
    parseFlag_other _ (str "abstract-listen:") _ 1 (by decide) (by decide) (by decide), parseFlag_self]

theorem tcp_listen_eq (K : Kernel) (n : Nat) (junk : Nat → Byte) (arg : Str) :
    fromStr K n junk (str "tcp-listen:" ++ arg) [] = tcpListen K n arg [] := by
  unfold fromStr
  rw [parseFlag_other _ (str "file:") _ 1 (by decide) (by decide) (by decide),
    parseFlag_other _ (str "unix-connect:") _ 1 (by decide) (by decide) (by decide),
    parseFlag_other _ (str "unix-listen:") _ 1 (by decide) (by decide) (by decide),
    parseFlag_other _ (str "abstract-connect:") _ 1 (by decide) (by decide) (by decide),
    parseFlag_other _ (str "abstract-listen:") _ 1 (by decide) (by decide) (by decide),
    parseFlag_other _ (str "tcp-connect:") _ 5 (by decide) (by decide) (by decide), parseFlag_self]

theorem cString_append (s : Str) (hs : (0 : Byte) ∉ s) (rest : List Byte) : cString (s ++ 0 :: rest) = .ok s := by
  induction s with
  | nil => rfl
  | cons c s ih =>
    have hc : c ≠ 0 := fun e => hs (by rw [e]; simp)
    show (if c = 0 then _ else (cString (s ++ 0 :: rest)).map (c :: ·)) = _
    rw [if_neg hc, ih (fun h => hs (List.mem_cons_of_mem _ h))]
    rfl

theorem cString_oob (s : List Byte) (hs : (0 : Byte) ∉ s) : cString s = .error .oob := by
  induction s with
  | nil => rfl
  | cons c s ih =>
    have hc : c ≠ 0 := fun e => hs (by rw [e]; simp)
    show (if c = 0 then _ else (cString s).map (c :: ·)) = _
    rw [if_neg hc, ih (fun h => hs (List.mem_cons_of_mem _ h))]
    rfl

theorem takeWhile_colon (node service : Str) (hn : ch ':' ∉ node) : (node ++ ch ':' :: service).takeWhile (· ≠ ch ':') = node := by
  induction node with
  | nil => simp
  | cons c node ih =>
    have hc : c ≠ ch ':' := fun e => hn (by rw [e]; simp)
    rw [List.cons_append, List.takeWhile_cons_of_pos (by simpa using hc), ih (fun h => hn (List.mem_cons_of_mem _ h))]

/-- **C72**, `tcp-connect:`, if the byte on the stack that follows the string happens to be zero: then the name and the port are
those given, and a connection is attempted to the address that the resolver finds. Without this (the code does not terminate the
string) see `C72_tcp_connect_violated`. -/
theorem C72_tcp_connect_partial (K : Kernel) (n : Nat) (junk : Nat → Byte) (node service : Str) (hn : ch ':' ∉ node)
    (h0 : (0 : Byte) ∉ node ∧ (0 : Byte) ∉ service) (hl : node.length + 1 + service.length ≤ 21)
    (hj : junk (node.length + 1 + service.length) = 0) :
    (K.resolve [] node service = none ∧
      fromStr K n junk (str "tcp-connect:" ++ (node ++ ch ':' :: service)) [] = .ok (some (-1), [.resolve node service none])) ∨
    ∃ a r u, K.resolve [] node service = some a ∧
      fromStr K n junk (str "tcp-connect:" ++ (node ++ ch ':' :: service)) [] = .ok (some r, .resolve node service (some a) :: u) ∧ Connects a r u := by
  rw [tcp_connect_eq]
  have hlen : (node ++ ch ':' :: service).length = node.length + 1 + service.length := by simp; omega
  unfold tcpConnect
  rw [if_neg (by rw [hlen]; unfold TCP_BUF; omega), takeWhile_colon _ _ hn]
  dsimp only
  rw [if_neg (by rw [hlen]; omega), hlen]
  have hr : ∃ rest, (List.range (TCP_BUF - (node.length + 1 + service.length))).map (fun i => junk (node.length + 1 + service.length + i)) = 0 :: rest := by
    obtain ⟨m, hm⟩ : ∃ m, TCP_BUF - (node.length + 1 + service.length) = m + 1 := ⟨21 - (node.length + 1 + service.length), by unfold TCP_BUF; omega⟩
    rw [hm, List.range_succ_eq_map]
    exact ⟨_, by rw [List.map_cons, Nat.add_zero, hj]⟩
  obtain ⟨rest, hr⟩ := hr
  rw [hr]
  have e1 : cString (((node ++ ch ':' :: service) ++ 0 :: rest).set node.length 0) = .ok node := by
    rw [List.append_assoc, List.set_append_right _ _ (Nat.le_refl _), Nat.sub_self]
    exact cString_append node h0.1 _
  have e2 : cString (((node ++ ch ':' :: service) ++ 0 :: rest).drop (node.length + 1)) = .ok service := by
    have : ((node ++ ch ':' :: service) ++ 0 :: rest).drop (node.length + 1) = service ++ 0 :: rest := by
      rw [List.append_assoc, List.drop_append, List.drop_of_length_le (by omega)]
      simp
    rw [this]
    exact cString_append service h0.2 rest
  rw [e1]
  simp only [bind, Except.bind, pure, Except.pure]
  rw [e2]
  dsimp only
  cases hk : K.resolve [] node service with
  | none => left; exact ⟨rfl, rfl⟩
  | some a =>
    right
    obtain ⟨r, u, e, hs⟩ := streamConnect_spec K a ([] ++ [.resolve node service (some a)])
    exact ⟨a, r, u, rfl, congrArg Except.ok e, hs⟩

/-- **C72**, `tcp-connect:`: an address without a colon, or longer than the longest `255.255.255.255:65535` and its terminator, is
refused before anything is asked of the system. -/
theorem C72_tcp_refused (K : Kernel) (n : Nat) (junk : Nat → Byte) (arg : Str) (h : ch ':' ∉ arg ∨ 22 < arg.length) :
    fromStr K n junk (str "tcp-connect:" ++ arg) [] = .ok (some (-1), []) := by
  rw [tcp_connect_eq]
  unfold tcpConnect
  by_cases hl : TCP_BUF < arg.length
  · rw [if_pos hl]
  · rw [if_neg hl]
    have hc : ch ':' ∉ arg := h.resolve_right hl
    have : arg.takeWhile (· ≠ ch ':') = arg := by
      clear hl h
      induction arg with
      | nil => rfl
      | cons c arg ih =>
        have hc' : c ≠ ch ':' := fun e => hc (by rw [e]; simp)
        rw [List.takeWhile_cons_of_pos (by simpa using hc'), ih (fun h => hc (List.mem_cons_of_mem _ h))]
    rw [this]
    exact if_pos (Nat.le_refl _)

example : ch ':' ∉ str "localhost" := by decide

/-- **C72**, violated: the string that is copied to the stack is not terminated. What is asked of the resolver depends on what was
there before: here port 80 becomes 8012; and if there is no zero byte, memory beyond the buffer is read. -/
theorem C72_tcp_connect_violated :
    (∃ (K : Kernel) (junk : Nat → Byte), fromStr K 1 junk (str "tcp-connect:127.0.0.1:80") [] =
      .ok (some (-1), [.resolve (str "127.0.0.1") (str "8012") none])) ∧
    ∀ (K : Kernel) (n : Nat) (junk : Nat → Byte) (node service : Str), ch ':' ∉ node → (0 : Byte) ∉ service → (∀ i, junk i ≠ 0) →
      (0 : Byte) ∉ node → node.length + 1 + service.length ≤ 22 →
      fromStr K n junk (str "tcp-connect:" ++ (node ++ ch ':' :: service)) [] = .error .oob := by
  constructor
  · refine ⟨⟨fun _ _ => -1, fun _ => -1, fun _ _ _ => false, fun _ _ => false, fun _ _ => some (-1), fun _ _ _ => false, fun _ _ _ => none⟩,
      fun i => if i = 12 then ch '1' else if i = 13 then ch '2' else 0, ?_⟩
    rfl
  · intro K n junk node service hn h0 hj h0' hl
    rw [tcp_connect_eq]
    have hlen : (node ++ ch ':' :: service).length = node.length + 1 + service.length := by simp; omega
    unfold tcpConnect
    rw [if_neg (by rw [hlen]; unfold TCP_BUF; omega), takeWhile_colon _ _ hn]
    dsimp only
    rw [if_neg (by rw [hlen]; omega), hlen]
    generalize hr : (List.range (TCP_BUF - (node.length + 1 + service.length))).map (fun i => junk (node.length + 1 + service.length + i)) = rest
    have hrest : (0 : Byte) ∉ rest := by
      rw [← hr]
      intro hm
      obtain ⟨i, -, e⟩ := List.mem_map.1 hm
      exact hj _ e
    have e1 : cString (((node ++ ch ':' :: service) ++ rest).set node.length 0) = .ok node := by
      rw [List.append_assoc, List.set_append_right _ _ (Nat.le_refl _), Nat.sub_self]
      exact cString_append node h0' _
    have e2 : cString (((node ++ ch ':' :: service) ++ rest).drop (node.length + 1)) = .error .oob := by
      have : ((node ++ ch ':' :: service) ++ rest).drop (node.length + 1) = service ++ rest := by
        rw [List.append_assoc, List.drop_append, List.drop_of_length_le (by omega)]
        simp
      rw [this]
      exact cString_oob _ (fun hm => (List.mem_append.1 hm).elim h0 hrest)
    rw [e1]
    simp only [bind, Except.bind, pure, Except.pure]
    rw [e2]

/-! ## Numbers -/

theorem digit_of_isDigit (c : Char) (h : c.isDigit = true) : 48 ≤ (ch c).toNat ∧ (ch c).toNat ≤ 57 ∧ (ch c).toNat - 48 = c.toNat - '0'.toNat := by
  rw [Char.isDigit_iff_toNat] at h
  have : (ch c).toNat = c.toNat := by
    unfold ch
    rw [BitVec.toNat_ofNat]
    exact Nat.mod_eq_of_lt (by have := h.2; simp at this; omega)
  rw [this]
  obtain ⟨h1, h2⟩ := h
  simp at h1 h2
  exact ⟨by omega, by omega, rfl⟩

theorem strtol_digits (l : List Char) (hl : ∀ c ∈ l, c.isDigit = true) (hne : l ≠ []) (n : Nat) (hn : Nat.ofDigitChars 10 l 0 = n) (hlt : n < 2 ^ 63) :
    strtol (l.map ch) = some (n : Int) := by
  obtain ⟨c, l', rfl⟩ := List.exists_cons_of_ne_nil hne
  obtain ⟨d1, d2, -⟩ := digit_of_isDigit c (hl c (by simp))
  unfold strtol
  have hd : ((c :: l').map ch).dropWhile (fun c => c = 32 || (9 ≤ c.toNat && c.toNat ≤ 13)) = (c :: l').map ch := by
    rw [List.map_cons, List.dropWhile_cons_of_neg]
    simp only [Bool.or_eq_true, decide_eq_true_eq, Bool.and_eq_true]
    rintro (e | e)
    · rw [e] at d1; exact absurd d1 (by decide)
    · omega
  have hm : ¬ ((c :: l').map ch).head? = some (ch '-') := by
    intro e
    have e : ch c = ch '-' := by simpa using e
    rw [e] at d1; exact absurd d1 (by decide)
  have hp : ¬ ((c :: l').map ch).head? = some (ch '+') := by
    intro e
    have e : ch c = ch '+' := by simpa using e
    rw [e] at d1; exact absurd d1 (by decide)
  have hw : ((c :: l').map ch).takeWhile (fun c => 48 ≤ c.toNat && c.toNat ≤ 57) = (c :: l').map ch := by
    have : ∀ m : List Char, (∀ c ∈ m, c.isDigit = true) → (m.map ch).takeWhile (fun c => 48 ≤ c.toNat && c.toNat ≤ 57) = m.map ch := by
      intro m
      induction m with
      | nil => intro _; rfl
      | cons y m ih =>
        intro hm
        obtain ⟨y1, y2, -⟩ := digit_of_isDigit y (hm y (by simp))
        rw [List.map_cons, List.takeWhile_cons_of_pos (by simp [y1, y2]), ih (fun c hc => hm c (by simp [hc]))]
    exact this _ hl
  have hf : ∀ (m : List Char) (k : Nat), (∀ c ∈ m, c.isDigit = true) → (m.map ch).foldl (fun n c => 10 * n + (c.toNat - 48)) k = Nat.ofDigitChars 10 m k := by
    intro m
    induction m with
    | nil => intro k _; rfl
    | cons x m ih =>
      intro k hm
      rw [List.map_cons, List.foldl_cons, ih _ (fun c hc => hm c (by simp [hc])), Nat.ofDigitChars_cons, (digit_of_isDigit x (hm x (by simp))).2.2]
  dsimp only
  rw [hd]
  have hs : (if ((c :: l').map ch).head? = some (ch '-') ∨ ((c :: l').map ch).head? = some (ch '+') then ((c :: l').map ch).drop 1 else (c :: l').map ch) =
      (c :: l').map ch := if_neg (by rintro (h | h); exact hm h; exact hp h)
  rw [hs, hw, hf _ _ hl, hn, if_neg (c := ((c :: l').map ch).head? = some (ch '-')) hm, if_neg (by omega)]

theorem strtol_number (n : Nat) (h : n < 2 ^ 63) : strtol (number n) = some (n : Int) :=
  strtol_digits _ (fun _ hc => Nat.isDigit_of_mem_toDigits (by decide) (by decide) hc) Nat.toDigits_ne_nil n Nat.ofDigitChars_ten_toDigits h

/-- **C72**, `tcp-listen:` with a decimal number up to 65535 listens on all interfaces; the port is the one given only if its two
bytes are the same. Partial: it should be for every number. -/
theorem C72_tcp_listen_partial (K : Kernel) (n : Nat) (junk : Nat → Byte) (port : Nat) (hp : port < 65536) :
    ∃ p0 p1, (∃ r t, fromStr K n junk (str "tcp-listen:" ++ number port) [] = .ok (r, t) ∧ ∀ fd, r = some fd → Serves (.inet [0, 0, 0, 0] p0 p1) fd t) ∧
      (portOf p0 p1 = port ↔ port / 256 = port % 256) := by
  rw [tcp_listen_eq]
  unfold tcpListen
  rw [strtol_number port (by omega)]
  have e : ∃ r t, Except.ok (ε := UB) (streamListen K n (.inet [0, 0, 0, 0] (portBytes port).1 (portBytes port).2) []) = .ok (r, t) ∧
      ∀ fd, r = some fd → Serves (.inet [0, 0, 0, 0] (portBytes port).1 (portBytes port).2) fd t := by
    rcases streamListen_spec K n (.inet [0, 0, 0, 0] (portBytes port).1 (portBytes port).2) [] with ⟨r, u, e, hs⟩ | ⟨fd, e⟩
    · exact ⟨_, _, by rw [e], fun fd h => by cases h; exact hs⟩
    · exact ⟨_, _, by rw [e], fun fd h => by cases h⟩
  refine ⟨_, _, e, ?_⟩
  have hb : (portBytes port).1.toNat = port % 256 ∧ (portBytes port).2.toNat = port / 256 := by
    unfold portBytes
    have : (BitVec.ofInt 16 (port : Int)).toNat = port := by
      rw [BitVec.ofInt_natCast, BitVec.toNat_ofNat]
      exact Nat.mod_eq_of_lt hp
    dsimp only
    rw [this]
    simp only [BitVec.toNat_ofNat]
    omega
  unfold portOf
  rw [hb.1, hb.2]
  omega

/-- **C72**, violated: `tcp-listen:8080` listens on port 36895. -/
theorem C72_tcp_listen_violated (K : Kernel) (n : Nat) (junk : Nat → Byte) :
    fromStr K n junk (str "tcp-listen:8080") [] = .ok (streamListen K n (.inet [0, 0, 0, 0] 0x90 0x1f) []) ∧ portOf 0x90 0x1f = 36895 :=
  ⟨rfl, rfl⟩

/-! ## The wrapper -/

/-- **C72**, arguments. After any number of `-transport=` flags, of which the last one counts, comes the command: what follows `--`,
or the first argument that is not a flag and all after it, which are not looked at. -/
theorem C72_arguments (ts : List Str) (command : List Str) (hc : command ≠ []) (t0 : Str) :
    parseArgs (ts.map (str "-transport=" ++ ·) ++ str "--" :: command) t0 = .run (ts.getLastD t0) command ∧
    ((∀ a ∈ command.head?, ¬ str "--help" <+: a ∧ ¬ str "-transport=" <+: a ∧ a ≠ str "--") →
      parseArgs (ts.map (str "-transport=" ++ ·) ++ command) t0 = .run (ts.getLastD t0) command) := by
  have step : ∀ (rest : List Str) (t0 : Str), parseArgs (ts.map (str "-transport=" ++ ·) ++ rest) t0 = parseArgs rest (ts.getLastD t0) := by
    intro rest
    induction ts with
    | nil => intro t0; rfl
    | cons t ts ih =>
      intro t0
      have h1 : parseFlag (str "-transport=" ++ t) (str "--help") = none := parseFlag_other _ _ _ 2 (by decide) (by decide) (by decide)
      rw [List.map_cons, List.cons_append]
      show (if (parseFlag (str "-transport=" ++ t) (str "--help")).isSome then Asked.help else
        match parseFlag (str "-transport=" ++ t) (str "-transport=") with
        | some v => parseArgs (ts.map (str "-transport=" ++ ·) ++ rest) v
        | none =>
          if str "-transport=" ++ t = str "--" then
            (if ts.map (str "-transport=" ++ ·) ++ rest = [] then .nothing else .run t0 (ts.map (str "-transport=" ++ ·) ++ rest))
          else .run t0 ((str "-transport=" ++ t) :: (ts.map (str "-transport=" ++ ·) ++ rest))) = _
      rw [h1, parseFlag_self]
      show parseArgs (ts.map (str "-transport=" ++ ·) ++ rest) t = _
      rw [ih]
      cases ts <;> rfl
  constructor
  · rw [step]
    show (if (parseFlag (str "--") (str "--help")).isSome then Asked.help else
        match parseFlag (str "--") (str "-transport=") with
        | some v => parseArgs command v
        | none => if str "--" = str "--" then (if command = [] then .nothing else .run _ command) else _) = _
    rw [show parseFlag (str "--") (str "--help") = none from rfl, show parseFlag (str "--") (str "-transport=") = none from rfl]
    dsimp only [Option.isSome]
    rw [if_neg (by decide), if_pos rfl, if_neg hc]
  · intro h
    rw [step]
    obtain ⟨a, l, rfl⟩ := List.exists_cons_of_ne_nil hc
    obtain ⟨h1, h2, h3⟩ := h a rfl
    have f1 : parseFlag a (str "--help") = none := by
      unfold parseFlag; rw [if_neg (fun e => h1 (List.isPrefixOf_iff_prefix.1 e))]
    have f2 : parseFlag a (str "-transport=") = none := by
      unfold parseFlag; rw [if_neg (fun e => h2 (List.isPrefixOf_iff_prefix.1 e))]
    show (if (parseFlag a (str "--help")).isSome then Asked.help else
        match parseFlag a (str "-transport=") with
        | some v => parseArgs l v
        | none => if a = str "--" then _ else .run _ (a :: l)) = _
    rw [f1, f2]
    dsimp only [Option.isSome]
    rw [if_neg (by decide), if_neg h3]

theorem fdText_eq (fd : Nat) (h : fd < 2 ^ 31) : fdText fd = number fd := by
  unfold fdText decimal
  rw [if_neg (by omega)]
  show ((Nat.toDigits 10 fd).map ch).take 10 = _
  rw [List.take_of_length_le]
  · rfl
  · rw [List.length_map]
    exact (Nat.length_toDigits_le_iff (by decide) (by decide)).2 (by omega)

/-- **C72**, hand-over. If the wrapper starts the command, there is exactly one descriptor open, the one made from the given
string; and the program that finds the variable in its environment attaches its debugger to it. -/
theorem C72_handover (K : Kernel) (n : Nat) (junk : Nat → Byte) (args : List Str) (command : List Str) (var : Str) (t : List Call)
    (h : wrapper K n junk args = .ok (.exec command var, t)) :
    ∃ (transport : Str) (fd : Int), parseArgs args (str "abstract-listen:buxn/vm") = .run transport command ∧
      fromStr K n junk transport [] = .ok (some fd, t) ∧ 0 ≤ fd ∧ left t = [fd] ∧ (fd < 2 ^ 31 - 1 → attach (some var) = some fd) := by
  unfold wrapper at h
  split at h
  · cases h
  · cases h
  rename_i transport command' hp
  split at h
  · cases h
  · cases h
  rename_i fd t' hf
  split at h
  · cases h
  · rename_i h0
    cases h
    have h0' : 0 ≤ fd := by omega
    refine ⟨transport, fd, hp, hf, h0', by rw [C72_descriptors K n junk transport fd t hf, if_pos h0'], fun hlt => ?_⟩
    obtain ⟨k, rfl⟩ := Int.eq_ofNat_of_zero_le h0'
    unfold attach
    rw [fdText_eq k (by omega)]
    dsimp only
    rw [strtol_number k (by omega)]
    exact if_pos ⟨by omega, hlt⟩

/-- **C72**: if no descriptor can be had, the command is not started. -/
theorem C72_no_descriptor (K : Kernel) (n : Nat) (junk : Nat → Byte) (args : List Str) (transport : Str) (command : List Str)
    (hp : parseArgs args (str "abstract-listen:buxn/vm") = .run transport command) (fd : Int) (hfd : fd < 0) (t : List Call)
    (hf : fromStr K n junk transport [] = .ok (some fd, t)) : wrapper K n junk args = .ok (.exit 1, t) ∧ left t = [] := by
  refine ⟨?_, by rw [C72_descriptors K n junk transport fd t hf, if_neg (by omega)]⟩
  unfold wrapper
  rw [hp]
  dsimp only
  rw [hf]
  exact if_pos hfd

/-! ## Concrete cases -/

/-- A kernel that knows one peer: sockets are numbered from 3, the third `accept` succeeds. -/
def exampleKernel : Kernel where
  openFile _ _ := 3
  socket _ := 3
  bind _ _ _ := true
  listen _ _ := true
  accept t _ := if t.length < 5 then none else some 4
  connect _ _ a := a = .unix (str "peer" ++ [0])
  resolve _ _ _ := none

example : fromStr exampleKernel 9 (fun _ => 0) (str "unix-connect:peer") [] = .ok (some 3, [.socket 3, .connect 3 (.unix (str "peer" ++ [0])) true]) := rfl
example : fromStr exampleKernel 9 (fun _ => 0) (str "unix-connect:beer") [] =
    .ok (some (-1), [.socket 3, .connect 3 (.unix (str "beer" ++ [0])) false, .close 3]) := rfl
example : wrapper exampleKernel 9 (fun _ => 0) [str "buxn-cli", str "x.rom"] =
    .ok (.exec [str "buxn-cli", str "x.rom"] (str "4"), [.socket 3, .bind 3 (.unix (0 :: str "buxn/vm")) true, .listen 3 true,
      .accept 3 none, .accept 3 none, .accept 3 (some 4), .close 3]) := rfl
example : attach (some (str "4")) = some 4 := by decide +kernel
/-- `tcp-connect` on a clean stack: the hypotheses of `C72_tcp_connect_partial`. -/
example : ch ':' ∉ str "127.0.0.1" ∧ (0 : Byte) ∉ str "127.0.0.1" ∧ (0 : Byte) ∉ str "8080" ∧ (str "127.0.0.1").length + 1 + (str "8080").length ≤ 21 := by
  decide

end Buxn.Dbg.Transport
