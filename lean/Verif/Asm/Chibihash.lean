import Verif.Asm.Hamt
import Mathlib.Tactic.IntervalCases
/-!
# C79: the hash of strings

`chibihash64` (`/repo/src/asm/chibihash64.h`), which the hash tries of the assembler and the string pool of debug symbols use.

The key is read from a memory that goes on after it; the offsets that are read are recorded. Lengths are below 2^63 (`ptrdiff_t`).
-/

namespace Buxn.Chibihash

abbrev W64 := BitVec 64

/-- What a piece of code reads, and its value. -/
structure Run (α : Type) where
  value : α
  seen : List Nat

def Run.bind (r : Run α) (f : α → Run β) : Run β := ⟨(f r.value).value, r.seen ++ (f r.value).seen⟩

instance : Monad Run where
  pure a := ⟨a, []⟩
  bind := Run.bind

/-- One byte of the key. -/
def byte (key : Nat → BitVec 8) (i : Nat) : Run W64 := ⟨(key i).setWidth 64, [i]⟩

/-- `chibihash64__load32le`, `chibihash64.h:12-16`. -/
def load32 (key : Nat → BitVec 8) (p : Nat) : Run W64 := do
  let a ← byte key p
  let b ← byte key (p + 1)
  let c ← byte key (p + 2)
  let d ← byte key (p + 3)
  return a ||| b <<< 8 ||| c <<< 16 ||| d <<< 24

/-- `chibihash64__load64le`, `chibihash64.h:17-20`. -/
def load64 (key : Nat → BitVec 8) (p : Nat) : Run W64 := do
  let a ← load32 key p
  let b ← load32 key (p + 4)
  return a ||| b <<< 32

/-- `chibihash64__rotl`, `chibihash64.h:21-24`; `n` is between 1 and 63. -/
def rotl (x : W64) (n : Nat) : W64 := x <<< n ||| x >>> ((-(BitVec.ofNat 32 n)) &&& 63).toNat

def K : W64 := 0x2B7E151628AED2A7

/-- `h`, `chibihash64.h:34`. -/
structure H where
  h0 : W64
  h1 : W64
  h2 : W64
  h3 : W64
  deriving DecidableEq

/-- `chibihash64.h:32-34`. -/
def start (seed : W64) : H :=
  let seed2 := rotl (seed - K) 15 + rotl (seed - K) 47
  ⟨seed, seed + K, seed2, seed2 + ((K * K) ^^^ K)⟩

/-- The body of `chibihash64.h:44-50`, unrolled: 32 bytes. -/
def stripes (key : Nat → BitVec 8) (p : Nat) (h : H) : Run H := do
  let s ← load64 key p
  let h := { h with h0 := (s + h.h0) * K, h1 := h.h1 + rotl s 27 }
  let s ← load64 key (p + 8)
  let h := { h with h1 := (s + h.h1) * K, h2 := h.h2 + rotl s 27 }
  let s ← load64 key (p + 16)
  let h := { h with h2 := (s + h.h2) * K, h3 := h.h3 + rotl s 27 }
  let s ← load64 key (p + 24)
  return { h with h3 := (s + h.h3) * K, h0 := h.h0 + rotl s 27 }

/-- `chibihash64.h:44-50`: pointer, rest of the length and the state afterwards. -/
def long (key : Nat → BitVec 8) (p l : Nat) (h : H) : Run (Nat × Nat × H) :=
  if 32 ≤ l then do
    let h ← stripes key p h
    long key (p + 32) (l - 32) h
  else pure (p, l, h)
termination_by l

/-- The body of `chibihash64.h:52-55`. -/
def words (key : Nat → BitVec 8) (p : Nat) (h : H) : Run H := do
  let a ← load32 key p
  let b ← load32 key (p + 4)
  return { h with h0 := (h.h0 ^^^ a) * K, h1 := (h.h1 ^^^ b) * K }

/-- `chibihash64.h:52-55`. -/
def medium (key : Nat → BitVec 8) (p l : Nat) (h : H) : Run (Nat × Nat × H) :=
  if 8 ≤ l then do
    let h ← words key p h
    medium key (p + 8) (l - 8) h
  else pure (p, l, h)
termination_by l

/-- `chibihash64.h:57-63`. -/
def tail (key : Nat → BitVec 8) (p l : Nat) (h : H) : Run H :=
  if 4 ≤ l then do
    let a ← load32 key p
    let b ← load32 key (p + l - 4)
    return { h with h2 := h.h2 ^^^ a, h3 := h.h3 ^^^ b }
  else if 0 < l then do
    let a ← byte key p
    let b ← byte key (p + l / 2)
    let c ← byte key (p + (l - 1))
    return { h with h2 := h.h2 ^^^ a, h3 := h.h3 ^^^ (b ||| c <<< 8) }
  else pure h

/-- `chibihash64.h:65-79`. -/
def mix (h : H) (len : Nat) (seed : W64) : W64 :=
  let h0 := h.h0 + (rotl (h.h2 * K) 31 ^^^ (h.h2 >>> 31))
  let h1 := h.h1 + (rotl (h.h3 * K) 31 ^^^ (h.h3 >>> 31))
  let h0 := h0 * K
  let h0 := h0 ^^^ (h0 >>> 31)
  let h1 := h1 + h0
  let x : W64 := BitVec.ofNat 64 len * K
  let x := x ^^^ rotl x 29
  let x := x + seed
  let x := x ^^^ h1
  let x := x ^^^ (rotl x 15 ^^^ rotl x 42)
  let x := x * K
  x ^^^ (rotl x 13 ^^^ rotl x 31)

/-- `chibihash64`, `chibihash64.h:26-80`. -/
def chibihash64 (key : Nat → BitVec 8) (len : Nat) (seed : W64) : Run W64 := do
  let r ← long key 0 len (start seed)
  let r ← medium key r.1 r.2.1 r.2.2
  let h ← tail key r.1 r.2.1 r.2.2
  return mix h len seed

/-! ## What is read -/

/-- A piece of code reads exactly the offsets from `p` up to `q`. -/
def Reads (r : Run α) (p q : Nat) : Prop := ∀ i, i ∈ r.seen ↔ p ≤ i ∧ i < q

theorem bind_seen (r : Run α) (f : α → Run β) : (r >>= f).seen = r.seen ++ (f r.value).seen := rfl
theorem pure_seen (a : α) : (pure a : Run α).seen = [] := rfl

theorem Reads.bind {r : Run α} {f : α → Run β} {p q t : Nat} (h : Reads r p q) (h' : Reads (f r.value) q t) (hp : p ≤ q) (hq : q ≤ t) : Reads (r >>= f) p t := by
  intro i
  rw [bind_seen, List.mem_append, h i, h' i]
  omega

theorem reads_pure (a : α) (p : Nat) : Reads (pure a : Run α) p p := by
  intro i; rw [pure_seen]; simp

theorem reads_byte (key : Nat → BitVec 8) (p : Nat) : Reads (byte key p) p (p + 1) := by
  intro i
  show i ∈ [p] ↔ _
  rw [List.mem_singleton]; omega

theorem reads_load32 (key : Nat → BitVec 8) (p : Nat) : Reads (load32 key p) p (p + 4) :=
  (reads_byte key p).bind ((reads_byte key (p + 1)).bind ((reads_byte key (p + 2)).bind ((reads_byte key (p + 3)).bind (reads_pure _ _)
    (by omega) (by omega)) (by omega) (by omega)) (by omega) (by omega)) (by omega) (by omega)

theorem reads_load64 (key : Nat → BitVec 8) (p : Nat) : Reads (load64 key p) p (p + 8) :=
  (reads_load32 key p).bind ((reads_load32 key (p + 4)).bind (reads_pure _ _) (by omega) (by omega)) (by omega) (by omega)

theorem reads_stripes (key : Nat → BitVec 8) (p : Nat) (h : H) : Reads (stripes key p h) p (p + 32) :=
  (reads_load64 key p).bind ((reads_load64 key (p + 8)).bind ((reads_load64 key (p + 16)).bind ((reads_load64 key (p + 24)).bind (reads_pure _ _)
    (by omega) (by omega)) (by omega) (by omega)) (by omega) (by omega)) (by omega) (by omega)

theorem reads_words (key : Nat → BitVec 8) (p : Nat) (h : H) : Reads (words key p h) p (p + 8) :=
  (reads_load32 key p).bind ((reads_load32 key (p + 4)).bind (reads_pure _ _) (by omega) (by omega)) (by omega) (by omega)

theorem long_spec (key : Nat → BitVec 8) (l : Nat) : ∀ p h, Reads (long key p l h) p (long key p l h).value.1 ∧ p ≤ (long key p l h).value.1 ∧
    (long key p l h).value.1 + (long key p l h).value.2.1 = p + l := by
  induction l using Nat.strongRecOn with
  | ind l ih =>
    intro p h
    rw [long]
    split
    · rename_i hl
      obtain ⟨h1, h2, h3⟩ := ih (l - 32) (by omega) (p + 32) (stripes key p h).value
      exact ⟨(reads_stripes key p h).bind h1 (by omega) h2, (by show p ≤ (long key (p + 32) (l - 32) (stripes key p h).value).value.1; omega), (by
        show (long key (p + 32) (l - 32) (stripes key p h).value).value.1 + (long key (p + 32) (l - 32) (stripes key p h).value).value.2.1 = p + l; omega)⟩
    · exact ⟨reads_pure _ _, Nat.le_refl _, rfl⟩

theorem medium_spec (key : Nat → BitVec 8) (l : Nat) : ∀ p h, Reads (medium key p l h) p (medium key p l h).value.1 ∧ p ≤ (medium key p l h).value.1 ∧
    (medium key p l h).value.1 + (medium key p l h).value.2.1 = p + l ∧ (medium key p l h).value.2.1 < 8 := by
  induction l using Nat.strongRecOn with
  | ind l ih =>
    intro p h
    rw [medium]
    split
    · rename_i hl
      obtain ⟨h1, h2, h3, h4⟩ := ih (l - 8) (by omega) (p + 8) (words key p h).value
      exact ⟨(reads_words key p h).bind h1 (by omega) h2, (by show p ≤ (medium key (p + 8) (l - 8) (words key p h).value).value.1; omega), (by
        show (medium key (p + 8) (l - 8) (words key p h).value).value.1 + (medium key (p + 8) (l - 8) (words key p h).value).value.2.1 = p + l; omega), h4⟩
    · exact ⟨reads_pure _ _, Nat.le_refl _, rfl, by show l < 8; omega⟩

theorem reads_tail (key : Nat → BitVec 8) (p l : Nat) (h : H) (hl : l < 8) : Reads (tail key p l h) p (p + l) := by
  unfold tail
  split
  · rename_i h4
    intro i
    rw [bind_seen, bind_seen, pure_seen, List.append_nil, List.mem_append, reads_load32 key p i, reads_load32 key (p + l - 4) i]
    omega
  · split
    · intro i
      rw [bind_seen, bind_seen, bind_seen, pure_seen, List.append_nil, List.mem_append, List.mem_append, reads_byte key p i, reads_byte key (p + l / 2) i, reads_byte key (p + (l - 1)) i]
      omega
    · rename_i h0
      have : l = 0 := by omega
      subst this
      exact reads_pure _ _

/-- **C79.** The hash reads every byte of the key and nothing else. -/
theorem C79_reads (key : Nat → BitVec 8) (len : Nat) (seed : W64) (i : Nat) : i ∈ (chibihash64 key len seed).seen ↔ i < len := by
  obtain ⟨a1, a2, a3⟩ := long_spec key len 0 (start seed)
  generalize hr : long key 0 len (start seed) = r at a1 a2 a3
  obtain ⟨b1, b2, b3, b4⟩ := medium_spec key r.value.2.1 r.value.1 r.value.2.2
  have c := reads_tail key (medium key r.value.1 r.value.2.1 r.value.2.2).value.1 _ (medium key r.value.1 r.value.2.1 r.value.2.2).value.2.2 b4
  have : Reads (chibihash64 key len seed) 0 len := by
    unfold chibihash64
    rw [hr]
    refine a1.bind (b1.bind (Reads.bind (t := len) c ?_ (by omega) (by omega)) b2 (by omega)) (by omega) (by omega)
    have e : (medium key r.value.1 r.value.2.1 r.value.2.2).value.1 + (medium key r.value.1 r.value.2.1 r.value.2.2).value.2.1 = len := by omega
    rw [e]
    exact reads_pure _ _
  rw [this i]; omega

/-! ## What the result depends on -/

/-- Two memories that agree on what the first run reads give the same run. -/
def Local (f : (Nat → BitVec 8) → Run α) : Prop := ∀ key key', (∀ i ∈ (f key).seen, key i = key' i) → f key' = f key

theorem local_pure (a : α) : Local fun _ => (pure a : Run α) := fun _ _ _ => rfl

theorem local_byte (p : Nat) : Local fun key => byte key p := by
  intro key key' h
  have e : key p = key' p := h p (by show p ∈ [p]; simp)
  show byte key' p = byte key p
  unfold byte
  rw [e]

theorem Local.bind {f : (Nat → BitVec 8) → Run α} {g : α → (Nat → BitVec 8) → Run β} (hf : Local f) (hg : ∀ a, Local (g a)) : Local fun key => f key >>= fun a => g a key := by
  intro key key' h
  have h1 := hf key key' fun i hi => h i (by rw [bind_seen]; exact List.mem_append_left _ hi)
  have h2 := hg (f key).value key key' fun i hi => h i (by rw [bind_seen]; exact List.mem_append_right _ hi)
  show Run.bind (f key') _ = Run.bind (f key) _
  unfold Run.bind
  dsimp only
  rw [h1]
  show Run.mk (g (f key).value key').value _ = _
  rw [h2]

theorem local_load32 (p : Nat) : Local fun key => load32 key p :=
  (local_byte p).bind fun _ => (local_byte (p + 1)).bind fun _ => (local_byte (p + 2)).bind fun _ => (local_byte (p + 3)).bind fun _ => local_pure _

theorem local_load64 (p : Nat) : Local fun key => load64 key p := (local_load32 p).bind fun _ => (local_load32 (p + 4)).bind fun _ => local_pure _

theorem local_stripes (p : Nat) (h : H) : Local fun key => stripes key p h :=
  (local_load64 p).bind fun _ => (local_load64 (p + 8)).bind fun _ => (local_load64 (p + 16)).bind fun _ => (local_load64 (p + 24)).bind fun _ => local_pure _

theorem local_words (p : Nat) (h : H) : Local fun key => words key p h := (local_load32 p).bind fun _ => (local_load32 (p + 4)).bind fun _ => local_pure _

theorem local_long (l : Nat) : ∀ p h, Local fun key => long key p l h := by
  induction l using Nat.strongRecOn with
  | ind l ih =>
    intro p h
    by_cases hl : 32 ≤ l
    · have : (fun key => long key p l h) = fun key => stripes key p h >>= fun h => long key (p + 32) (l - 32) h := by
        funext key; rw [long, if_pos hl]
      rw [this]
      exact (local_stripes p h).bind fun _ => ih _ (by omega) _ _
    · have : (fun key => long key p l h) = fun _ => pure (p, l, h) := by
        funext key; rw [long, if_neg hl]
      rw [this]
      exact local_pure _

theorem local_medium (l : Nat) : ∀ p h, Local fun key => medium key p l h := by
  induction l using Nat.strongRecOn with
  | ind l ih =>
    intro p h
    by_cases hl : 8 ≤ l
    · have : (fun key => medium key p l h) = fun key => words key p h >>= fun h => medium key (p + 8) (l - 8) h := by
        funext key; rw [medium, if_pos hl]
      rw [this]
      exact (local_words p h).bind fun _ => ih _ (by omega) _ _
    · have : (fun key => medium key p l h) = fun _ => pure (p, l, h) := by
        funext key; rw [medium, if_neg hl]
      rw [this]
      exact local_pure _

theorem local_tail (p l : Nat) (h : H) : Local fun key => tail key p l h := by
  unfold tail
  split
  · exact (local_load32 p).bind fun _ => (local_load32 _).bind fun _ => local_pure _
  · split
    · exact (local_byte p).bind fun _ => (local_byte _).bind fun _ => (local_byte _).bind fun _ => local_pure _
    · exact local_pure _

/-- **C79.** Equal keys have equal hashes: the hash depends on the bytes of the key, its length and the seed only, not on what is in memory
behind the key. -/
theorem C79_equal (key key' : Nat → BitVec 8) (len : Nat) (seed : W64) (h : ∀ i < len, key i = key' i) : (chibihash64 key len seed).value = (chibihash64 key' len seed).value := by
  have hloc : Local fun key => chibihash64 key len seed :=
    (local_long len 0 (start seed)).bind fun _ => (local_medium _ _ _).bind fun _ => (local_tail _ _ _).bind fun _ => local_pure _
  exact (congrArg Run.value (hloc key key' fun i hi => h i ((C79_reads key len seed i).1 hi))).symm

/-- **C79.** `rotl` is a rotation for the amounts that are used, so that no shift is out of range. -/
theorem C79_rotl (x : W64) (n : Nat) (h0 : 0 < n) (h : n < 64) : rotl x n = x.rotateLeft n := by
  have e : ((-(BitVec.ofNat 32 n)) &&& 63).toNat = 64 - n := by
    have : ∀ n : Fin 64, 0 < n.1 → ((-(BitVec.ofNat 32 n.1)) &&& 63).toNat = 64 - n.1 := by decide +kernel
    exact this ⟨n, h⟩ h0
  unfold rotl
  rw [e, BitVec.rotateLeft_def, Nat.mod_eq_of_lt h]

/-- **C79.** The hash does not depend on the byte order of the machine: words are read from the bytes, least significant first. -/
theorem C79_little_endian (key : Nat → BitVec 8) (p j : Nat) (hj : j < 64) : (load64 key p).value.getLsbD j = (key (p + j / 8)).getLsbD (j % 8) := by
  show (((key p).setWidth 64 ||| (key (p + 1)).setWidth 64 <<< 8 ||| (key (p + 2)).setWidth 64 <<< 16 ||| (key (p + 3)).setWidth 64 <<< 24) |||
    ((key (p + 4)).setWidth 64 ||| (key (p + 4 + 1)).setWidth 64 <<< 8 ||| (key (p + 4 + 2)).setWidth 64 <<< 16 ||| (key (p + 4 + 3)).setWidth 64 <<< 24) <<< 32).getLsbD j = _
  interval_cases j <;> simp [Nat.add_assoc]

/-! ## The value -/

namespace Spec

/-- The first four bytes of a text as a number, the first byte lowest. -/
def word32 (l : List (BitVec 8)) : W64 := (l.getD 3 0 ++ l.getD 2 0 ++ l.getD 1 0 ++ l.getD 0 0 : BitVec 32).setWidth 64

/-- The first eight. -/
def word64 (l : List (BitVec 8)) : W64 :=
  l.getD 7 0 ++ l.getD 6 0 ++ l.getD 5 0 ++ l.getD 4 0 ++ l.getD 3 0 ++ l.getD 2 0 ++ l.getD 1 0 ++ l.getD 0 0

/-- A block of 32 bytes: each of its four words goes into one part of the state, and rotated by 27 into the next. -/
def block (l : List (BitVec 8)) (h : H) : H :=
  let w (i : Nat) := word64 (l.drop (8 * i))
  ⟨(w 0 + h.h0) * K + (w 3).rotateLeft 27, (w 1 + (h.h1 + (w 0).rotateLeft 27)) * K, (w 2 + (h.h2 + (w 1).rotateLeft 27)) * K, (w 3 + (h.h3 + (w 2).rotateLeft 27)) * K⟩

/-- The whole blocks of a text; the rest of the text. -/
def blocks (l : List (BitVec 8)) (h : H) : H × List (BitVec 8) :=
  if 32 ≤ l.length then blocks (l.drop 32) (block l h) else (h, l)
termination_by l.length
decreasing_by simp only [List.length_drop]; omega

/-- The whole words of the rest; what is left has at most 7 bytes. -/
def pairs (l : List (BitVec 8)) (h : H) : H × List (BitVec 8) :=
  if 8 ≤ l.length then pairs (l.drop 8) ⟨(h.h0 ^^^ word32 l) * K, (h.h1 ^^^ word32 (l.drop 4)) * K, h.h2, h.h3⟩ else (h, l)
termination_by l.length
decreasing_by simp only [List.length_drop]; omega

/-- The last bytes: from four on the first four and the last four of them (which may overlap), else the first, the middle and the last. -/
def leftover (l : List (BitVec 8)) (h : H) : H :=
  match l with
  | [] => h
  | [a] => ⟨h.h0, h.h1, h.h2 ^^^ a.setWidth 64, h.h3 ^^^ (a ++ a : BitVec 16).setWidth 64⟩
  | [a, b] => ⟨h.h0, h.h1, h.h2 ^^^ a.setWidth 64, h.h3 ^^^ (b ++ b : BitVec 16).setWidth 64⟩
  | [a, b, c] => ⟨h.h0, h.h1, h.h2 ^^^ a.setWidth 64, h.h3 ^^^ (c ++ b : BitVec 16).setWidth 64⟩
  | l => ⟨h.h0, h.h1, h.h2 ^^^ word32 l, h.h3 ^^^ word32 (l.drop (l.length - 4))⟩

/-- What is made of the state in the end. -/
def finish (h : H) (len : Nat) (seed : W64) : W64 :=
  let a := (h.h0 + ((h.h2 * K).rotateLeft 31 ^^^ (h.h2 >>> 31))) * K
  let b := h.h1 + ((h.h3 * K).rotateLeft 31 ^^^ (h.h3 >>> 31)) + (a ^^^ (a >>> 31))
  let x : W64 := BitVec.ofNat 64 len * K
  let y := ((x ^^^ x.rotateLeft 29) + seed) ^^^ b
  let z := (y ^^^ (y.rotateLeft 15 ^^^ y.rotateLeft 42)) * K
  z ^^^ (z.rotateLeft 13 ^^^ z.rotateLeft 31)

/-- The hash of a text. -/
def hash (l : List (BitVec 8)) (seed : W64) : W64 :=
  let s2 := (seed - K).rotateLeft 15 + (seed - K).rotateLeft 47
  let r := blocks l ⟨seed, seed + K, s2, s2 + ((K * K) ^^^ K)⟩
  let r := pairs r.2 r.1
  finish (leftover r.2 r.1) l.length seed

end Spec

theorem load32_value (key : Nat → BitVec 8) (p : Nat) : (load32 key p).value = (key (p + 3) ++ key (p + 2) ++ key (p + 1) ++ key p : BitVec 32).setWidth 64 := by
  show (key p).setWidth 64 ||| (key (p + 1)).setWidth 64 <<< 8 ||| (key (p + 2)).setWidth 64 <<< 16 ||| (key (p + 3)).setWidth 64 <<< 24 = _
  apply BitVec.eq_of_getLsbD_eq
  intro j hj
  simp only [BitVec.getLsbD_or, BitVec.getLsbD_shiftLeft, BitVec.getLsbD_setWidth, BitVec.getLsbD_append]
  interval_cases j <;> simp

theorem load64_value (key : Nat → BitVec 8) (p : Nat) : (load64 key p).value =
    key (p + 7) ++ key (p + 6) ++ key (p + 5) ++ key (p + 4) ++ key (p + 3) ++ key (p + 2) ++ key (p + 1) ++ key p := by
  apply BitVec.eq_of_getLsbD_eq
  intro j hj
  rw [C79_little_endian key p j hj]
  simp only [BitVec.getLsbD_or, BitVec.getLsbD_shiftLeft, BitVec.getLsbD_setWidth, BitVec.getLsbD_append]
  interval_cases j <;> simp

theorem pair_value (b c : BitVec 8) : b.setWidth 64 ||| c.setWidth 64 <<< 8 = ((c ++ b : BitVec 16).setWidth 64 : W64) := by
  apply BitVec.eq_of_getLsbD_eq
  intro j hj
  simp only [BitVec.getLsbD_or, BitVec.getLsbD_shiftLeft, BitVec.getLsbD_setWidth, BitVec.getLsbD_append]
  interval_cases j <;> simp

theorem getD_drop (l : List (BitVec 8)) (p i : Nat) : (l.drop p).getD i 0 = l.getD (p + i) 0 := by
  rw [List.getD_eq_getElem?_getD, List.getElem?_drop, List.getD_eq_getElem?_getD]

theorem word32_at (l : List (BitVec 8)) (p : Nat) : (load32 (fun i => l.getD i 0) p).value = Spec.word32 (l.drop p) := by
  rw [load32_value]
  unfold Spec.word32
  simp only [getD_drop, Nat.add_zero]

theorem word64_at (l : List (BitVec 8)) (p : Nat) : (load64 (fun i => l.getD i 0) p).value = Spec.word64 (l.drop p) := by
  rw [load64_value]
  unfold Spec.word64
  simp only [getD_drop, Nat.add_zero]

theorem block_at (l : List (BitVec 8)) (p : Nat) (h : H) : (stripes (fun i => l.getD i 0) p h).value = Spec.block (l.drop p) h := by
  have e := word64_at l
  unfold Spec.block
  dsimp only
  rw [List.drop_drop, List.drop_drop, List.drop_drop, List.drop_drop, ← C79_rotl _ 27 (by decide) (by decide), ← C79_rotl _ 27 (by decide) (by decide), ← C79_rotl _ 27 (by decide) (by decide),
    ← C79_rotl _ 27 (by decide) (by decide), ← word64_at, ← word64_at, ← word64_at, ← word64_at]
  rfl

theorem long_at (l : List (BitVec 8)) (n : Nat) : ∀ p h, n + p = l.length →
    let r := (long (fun i => l.getD i 0) p n h).value
    (r.2.2, l.drop r.1) = Spec.blocks (l.drop p) h ∧ r.2.1 + r.1 = l.length := by
  induction n using Nat.strongRecOn with
  | ind n ih =>
    intro p h hp
    rw [long, Spec.blocks]
    by_cases hn : 32 ≤ n
    · rw [if_pos hn, if_pos (by rw [List.length_drop]; omega)]
      have := ih (n - 32) (by omega) (p + 32) (stripes (fun i => l.getD i 0) p h).value (by omega)
      rw [block_at] at this
      rw [List.drop_drop]
      show _ ∧ _
      have e : (stripes (fun i => l.getD i 0) p h >>= fun h => long (fun i => l.getD i 0) (p + 32) (n - 32) h).value =
        (long (fun i => l.getD i 0) (p + 32) (n - 32) (Spec.block (l.drop p) h)).value := by
        rw [← block_at]; rfl
      rw [e]
      exact this
    · rw [if_neg hn, if_neg (by rw [List.length_drop]; omega)]
      exact ⟨rfl, hp⟩

theorem medium_at (l : List (BitVec 8)) (n : Nat) : ∀ p h, n + p = l.length →
    let r := (medium (fun i => l.getD i 0) p n h).value
    (r.2.2, l.drop r.1) = Spec.pairs (l.drop p) h ∧ r.2.1 + r.1 = l.length ∧ r.2.1 < 8 := by
  induction n using Nat.strongRecOn with
  | ind n ih =>
    intro p h hp
    rw [medium, Spec.pairs]
    by_cases hn : 8 ≤ n
    · rw [if_pos hn, if_pos (by rw [List.length_drop]; omega)]
      have := ih (n - 8) (by omega) (p + 8) ⟨(h.h0 ^^^ Spec.word32 (l.drop p)) * K, (h.h1 ^^^ Spec.word32 ((l.drop p).drop 4)) * K, h.h2, h.h3⟩ (by omega)
      rw [List.drop_drop] at this ⊢
      rw [List.drop_drop]
      have e : (words (fun i => l.getD i 0) p h >>= fun h => medium (fun i => l.getD i 0) (p + 8) (n - 8) h).value =
        (medium (fun i => l.getD i 0) (p + 8) (n - 8) ⟨(h.h0 ^^^ Spec.word32 (l.drop p)) * K, (h.h1 ^^^ Spec.word32 (l.drop (p + 4))) * K, h.h2, h.h3⟩).value := by
        rw [← word32_at, ← word32_at]; rfl
      rw [e]
      exact this
    · rw [if_neg hn, if_neg (by rw [List.length_drop]; omega)]
      exact ⟨rfl, hp, by show n < 8; omega⟩

theorem tail_at (l : List (BitVec 8)) (p n : Nat) (h : H) (hp : n + p = l.length) :
    (tail (fun i => l.getD i 0) p n h).value = Spec.leftover (l.drop p) h := by
  have hlen : (l.drop p).length = n := by rw [List.length_drop]; omega
  have hget : ∀ i, l.getD (p + i) 0 = (l.drop p).getD i 0 := fun i => (getD_drop l p i).symm
  unfold tail
  by_cases h4 : 4 ≤ n
  · rw [if_pos h4]
    show (⟨_, _, h.h2 ^^^ (load32 (fun i => l.getD i 0) p).value, h.h3 ^^^ (load32 (fun i => l.getD i 0) (p + n - 4)).value⟩ : H) = _
    rw [word32_at, word32_at, show p + n - 4 = p + (n - 4) by omega, ← List.drop_drop]
    generalize l.drop p = m at hlen
    subst hlen
    match m with
    | [] | [_] | [_, _] | [_, _, _] => simp at h4
    | _ :: _ :: _ :: _ :: _ => rfl
  · rw [if_neg h4]
    by_cases h0 : 0 < n
    · rw [if_pos h0]
      show (⟨_, _, h.h2 ^^^ (l.getD p 0).setWidth 64, h.h3 ^^^ ((l.getD (p + n / 2) 0).setWidth 64 ||| (l.getD (p + (n - 1)) 0).setWidth 64 <<< 8)⟩ : H) = _
      have h0' := hget 0
      rw [Nat.add_zero] at h0'
      rw [pair_value, hget, hget, h0']
      generalize l.drop p = m at hlen
      subst hlen
      match m with
      | [] => simp at h0
      | [_] | [_, _] | [_, _, _] => simp [Spec.leftover]
      | _ :: _ :: _ :: _ :: _ => simp at h4
    · rw [if_neg h0]
      generalize l.drop p = m at hlen
      cases m with
      | nil => rfl
      | cons _ _ => simp at hlen; omega

theorem finish_eq (h : H) (len : Nat) (seed : W64) : mix h len seed = Spec.finish h len seed := by
  unfold mix Spec.finish
  simp only [C79_rotl _ 31 (by decide) (by decide), C79_rotl _ 29 (by decide) (by decide), C79_rotl _ 15 (by decide) (by decide), C79_rotl _ 42 (by decide) (by decide),
    C79_rotl _ 13 (by decide) (by decide)]

/-- **C79.** The hash of a text is what the algorithm says: blocks of 32 bytes, then pairs of words, then the last bytes, then the finish, all in terms of rotations and
little-endian words. -/
theorem C79_value (l : List (BitVec 8)) (key : Nat → BitVec 8) (h : ∀ i (hi : i < l.length), key i = l[i]) (seed : W64) : (chibihash64 key l.length seed).value = Spec.hash l seed := by
  rw [C79_equal key (fun i => l.getD i 0) l.length seed fun i hi => by rw [h i hi, List.getD_eq_getElem?_getD, List.getElem?_eq_getElem hi]; rfl]
  have hs : start seed = ⟨seed, seed + K, (seed - K).rotateLeft 15 + (seed - K).rotateLeft 47, (seed - K).rotateLeft 15 + (seed - K).rotateLeft 47 + ((K * K) ^^^ K)⟩ := by
    unfold start
    simp only [C79_rotl _ 15 (by decide) (by decide), C79_rotl _ 47 (by decide) (by decide)]
  obtain ⟨a1, a2⟩ := long_at l l.length 0 (start seed) rfl
  obtain ⟨b1, b2, b3⟩ := medium_at l _ _ (long (fun i => l.getD i 0) 0 l.length (start seed)).value.2.2 a2
  have c := tail_at l _ _ (medium (fun i => l.getD i 0) (long (fun i => l.getD i 0) 0 l.length (start seed)).value.1 (long (fun i => l.getD i 0) 0 l.length (start seed)).value.2.1
    (long (fun i => l.getD i 0) 0 l.length (start seed)).value.2.2).value.2.2 b2
  unfold Spec.hash
  dsimp only
  rw [← hs, ← finish_eq]
  rw [List.drop_zero] at a1
  rw [← a1]
  dsimp only
  rw [← b1]
  dsimp only
  rw [← c]
  rfl

/-- The hash of a string, wherever it is in memory; `asm.c:728`, `asm.c:755`. -/
def hashOf (s : Buxn.Asm.Str) : W64 := (chibihash64 (fun i => s.getD i 0) s.length 0).value

/-- **C79.** Wherever a string is in memory and whatever follows it, its hash is that of its bytes; with this function the tables of the
assembler are maps from strings to entries (C40). -/
theorem C79_tables (s : Buxn.Asm.Str) (mem : Nat → BitVec 8) (at' : Nat) (h : ∀ i (hi : i < s.length), mem (at' + i) = s[i]) (rs : List Buxn.Asm.Hamt.Request) :
    (chibihash64 (fun i => mem (at' + i)) s.length 0).value = hashOf s ∧ Buxn.Asm.Hamt.requests hashOf rs {} = Buxn.Asm.Hamt.Spec.answers rs {} := by
  refine ⟨C79_equal _ _ _ _ fun i hi => ?_, Buxn.Asm.Hamt.C40_maps hashOf rs⟩
  rw [h i hi, List.getD_eq_getElem?_getD, List.getElem?_eq_getElem hi, Option.getD_some]

/-! ## Instances -/

/-- The published test values of the hash function. -/
example : hashOf [] = 0xd4f69e3eccf128fc ∧ hashOf (Buxn.Asm.str "hi") = 0x92c85ca994367dac ∧ (chibihash64 (fun _ => 0) 0 55555).value = 0x58aee94ca9fb5092 := by decide +kernel

def ofList (l : List (BitVec 8)) (i : Nat) : BitVec 8 := l.getD i 0xee

/-- A key of 45 bytes: one stripe, one word and a tail. -/
example : (chibihash64 (ofList ((List.range 45).map (BitVec.ofNat 8))) 45 0).seen.length = 32 + 8 + 8 := by decide +kernel

/-- Keys that differ in one byte, in their length, or in the seed, and have different hashes. -/
example : (chibihash64 (ofList [1, 2, 3]) 3 0).value ≠ (chibihash64 (ofList [1, 2, 4]) 3 0).value ∧
    (chibihash64 (ofList [1, 2, 3]) 3 0).value ≠ (chibihash64 (ofList [1, 2, 3]) 2 0).value ∧
    (chibihash64 (ofList [1, 2, 3]) 3 0).value ≠ (chibihash64 (ofList [1, 2, 3]) 3 1).value := by decide +kernel

end Buxn.Chibihash
