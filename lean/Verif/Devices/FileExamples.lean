import Verif.Devices.FileOps
/-!
# A small file system: the hypotheses of the file theorems are met, and C19 fails when a directory is opened again
-/
namespace Buxn.File

/-- A file system with a directory `d` that contains the files `a` and `b` of 5 bytes; every other path is a file with the
text `hello`, of which at most two bytes are delivered at a time. The state is a position. -/
def toy : Host Nat where
  stat p s := (if p = [0x64] then ⟨.directory, 0⟩ else ⟨.regular, 5⟩, s)
  fopen _ _ _ := (some 1, 0)
  fclose _ s := s
  opendir _ _ := (some 2, 0)
  closedir _ s := s
  fread _ n s :=
    let d := (([0x68, 0x65, 0x6c, 0x6c, 0x6f] : List Byte).drop s).take (min n 2)
    (d, s + d.length)
  fwrite _ d s := (3, s + d.length)
  readdir _ s := (if s = 0 then some (⟨.regular, 5⟩, [0x61]) else if s = 1 then some (⟨.regular, 5⟩, [0x62]) else none, s + 1)
  delete _ s := (true, s)

/-- Memory with the path `d` at 0x2000 and the path `f` at 0x2002. -/
def toyMem : Nat → Byte := fun i => if i = 0x2000 then 0x64 else if i = 0x2002 then 0x66 else 0

/-- The ports: the name at `name`, the length `len`, addresses 0x3000. -/
def toyPorts (name : Byte) (len : Byte) : Fin 16 → Byte := fun p =>
  if p = 8 then 0x20 else if p = 9 then name else if p = 11 then len else if p = 4 then 0x30 else if p = 12 then 0x30
  else if p = 14 then 0x30 else 0

/-- A result of a read: the bytes at 0x3000 and the success port. -/
def outcome (ops : List Op) (port : Fin 16) (name len : Byte) : Option (List Byte × Nat × List Call) :=
  match guestOps toy 65536 (ops ++ [⟨toyPorts name len, port, toyMem⟩]) (fresh 0) with
  | .ok w => some (slice w.mem 0x3000 (successPort w.dev (toyPorts name len)), successPort w.dev (toyPorts name len), w.log)
  | .error _ => none

/-- Four bytes of a file are read in two steps; then a stat, a write that is accepted in three steps, a delete. -/
example : outcome [] 13 2 4 = some ([0x68, 0x65, 0x6c, 0x6c], 4, [.stat [0x66] ⟨.regular, 5⟩, .fopen [0x66] .read (some 1),
      .fread (.real 1) 4 [0x68, 0x65], .fread (.real 1) 2 [0x6c, 0x6c]]) ∧
    (outcome [] 5 2 4).map (fun r => (r.1, r.2.1)) = some ([0x30, 0x30, 0x30, 0x35], 4) ∧
    (outcome [⟨toyPorts 2 4, 13, toyMem⟩] 15 2 7).map (fun r => (r.2.1, r.2.2.length)) = some (7, 10) ∧
    (outcome [] 6 2 4).map (fun r => r.2.1) = some 1 := by decide +kernel

/-- The directory in one read: `0005 a`, `0005 b`. -/
example : (outcome [] 13 0 100).map (fun r => r.1) =
    some [0x30, 0x30, 0x30, 0x35, 0x20, 0x61, 0x0a, 0x30, 0x30, 0x30, 0x35, 0x20, 0x62, 0x0a] := by decide +kernel

/-- The hypotheses of `C19_directory_bytes_partial` are met on the first read, and a split read gives the same bytes. -/
example : (match guestOp toy 65536 ⟨toyPorts 0 5, 13, toyMem⟩ (fresh 0) with
      | .ok w => Slot.closed.run w.log
      | .error _ => none) = some (.dir 2) ∧
    (match guestReads toy 65536 [(toyPorts 0 5, toyMem), (toyPorts 0 1, toyMem), (toyPorts 0 40, toyMem)] (fresh 0) with
      | .ok (b, _) => b
      | .error _ => []) = [0x30, 0x30, 0x30, 0x35, 0x20, 0x61, 0x0a, 0x30, 0x30, 0x30, 0x35, 0x20, 0x62, 0x0a] := by decide +kernel

/-- **C19 fails when a directory is opened while something of another one is left** (`file.c:141-152` and `file.c:27-68`
do not empty the buffer): after a read of three bytes and a new name, the first bytes of the new reading are the rest of
the first entry of the *old* reading: ` 5 a` and so on, then the two entries again. -/
theorem C19_reopen_violated :
    (outcome [⟨toyPorts 0 3, 13, toyMem⟩, ⟨toyPorts 0 3, 9, toyMem⟩] 13 0 100).map (fun r => r.1) =
      some ([0x35, 0x20, 0x61, 0x0a] ++
        [0x30, 0x30, 0x30, 0x35, 0x20, 0x61, 0x0a, 0x30, 0x30, 0x30, 0x35, 0x20, 0x62, 0x0a]) := by decide +kernel

end Buxn.File
