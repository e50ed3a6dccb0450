import Verif.Dbg.Core
import Mathlib.Tactic.Linarith
import Mathlib.Tactic.IntervalCases
/-! The breakpoint table (C24) and which breakpoint is hit. -/
namespace Buxn.Dbg
open Buxn.VM Buxn.VM.Spec

/-! ## Specification: a table of breakpoints is a map from identifiers -/

/-- What was last written under an identifier; a breakpoint that was never written has an empty mask. -/
def lastWritten : List (Byte × Brkp) → Byte → Brkp
  | [], _ => ⟨0, 0⟩
  | (i, b) :: later, id => if ∃ e ∈ later, e.1 = id then lastWritten later id else if i = id then b else ⟨0, 0⟩

/-- The breakpoint commands among the events, in order. The identifier 255 means "none": such commands do nothing. -/
def written (log : List Ev) : List (Byte × Brkp) :=
  log.filterMap fun
    | .command (.brkpSet id b) => if id = 255 then none else some (id, b)
    | _ => none

/-- The table agrees with the commands given so far. -/
structure InSync (cmds : List (Byte × Brkp)) (d : Dbg) : Prop where
  content : ∀ i : Byte, i ≠ 255 → d.brkps i.toNat = lastWritten cmds i
  /-- every live breakpoint is within the size -/
  size : ∀ i : Byte, i ≠ 255 → (lastWritten cmds i).mask ≠ 0 → i.toNat < d.nbrkps.toNat
  /-- the size is no larger than needed -/
  tight : d.nbrkps ≠ 0 → (lastWritten cmds (d.nbrkps - 1)).mask ≠ 0
  /-- the mask is the union of the kinds of all live breakpoints -/
  kinds : ∀ j, d.brkpMask.getLsbD j = true ↔ ∃ i : Byte, i ≠ 255 ∧ (lastWritten cmds i).mask.getLsbD j = true

theorem lastWritten_append (cmds : List (Byte × Brkp)) (id : Byte) (b : Brkp) (i : Byte) :
    lastWritten (cmds ++ [(id, b)]) i = if i = id then b else lastWritten cmds i := by
  induction cmds with
  | nil =>
    rw [List.nil_append]
    unfold lastWritten
    by_cases h : i = id
    · simp [h]
    · have : ¬ id = i := fun e => h e.symm
      simp [h, this, lastWritten]
  | cons c cs ih =>
    obtain ⟨ci, cb⟩ := c
    rw [List.cons_append]
    unfold lastWritten
    by_cases h : i = id
    · rw [if_pos ⟨(id, b), by simp, h.symm⟩, ih]
      simp [h]
    · rw [if_neg h]
      have : (∃ e ∈ cs ++ [(id, b)], e.1 = i) ↔ ∃ e ∈ cs, e.1 = i := by
        constructor
        · rintro ⟨e, he, hi⟩
          rcases List.mem_append.mp he with h1 | h1
          · exact ⟨e, h1, hi⟩
          · rw [List.mem_singleton] at h1; subst h1; exact absurd hi.symm h
        · rintro ⟨e, he, hi⟩
          exact ⟨e, List.mem_append_left _ he, hi⟩
      by_cases h2 : ∃ e ∈ cs, e.1 = i
      · rw [if_pos (this.mpr h2), if_pos h2, ih, if_neg h]
      · rw [if_neg (fun x => h2 (this.mp x)), if_neg h2]

theorem shrink_le (f : Nat → Brkp) (n : Nat) : shrink f n ≤ n := by
  induction n with
  | zero => exact Nat.le_refl _
  | succ n ih => unfold shrink; split <;> omega

theorem shrink_above (f : Nat → Brkp) (n i : Nat) (h1 : shrink f n ≤ i) (h2 : i < n) : (f i).mask = 0 := by
  induction n with
  | zero => omega
  | succ n ih =>
    unfold shrink at h1
    split at h1
    · omega
    · rename_i hz
      by_cases h : i = n
      · subst h; exact Classical.not_not.mp hz
      · exact ih h1 (by omega)

theorem shrink_top (f : Nat → Brkp) (n : Nat) (h : shrink f n ≠ 0) : (f (shrink f n - 1)).mask ≠ 0 := by
  induction n with
  | zero => exact absurd rfl h
  | succ n ih =>
    unfold shrink at h ⊢
    split
    · rename_i hz; simpa using hz
    · rename_i hz
      rw [if_neg hz] at h
      exact ih h

theorem orMasks_bit (f : Nat → Brkp) (n j : Nat) :
    (orMasks f n).getLsbD j = true ↔ ∃ i, i < n ∧ (f i).mask.getLsbD j = true := by
  induction n with
  | zero => simp [orMasks]
  | succ n ih =>
    unfold orMasks
    rw [BitVec.getLsbD_or, Bool.or_eq_true, ih]
    constructor
    · rintro (⟨i, h1, h2⟩ | h)
      · exact ⟨i, by omega, h2⟩
      · exact ⟨n, by omega, h⟩
    · rintro ⟨i, h1, h2⟩
      by_cases h : i = n
      · subst h; exact Or.inr h2
      · exact Or.inl ⟨i, by omega, h2⟩

theorem byte_ofNat (i : Nat) (h : i < 256) : (BitVec.ofNat 8 i).toNat = i := by
  rw [BitVec.toNat_ofNat]; exact Nat.mod_eq_of_lt h

theorem byte_ne_255 (i : Byte) (h : i ≠ 255) : i.toNat < 255 := by
  have h1 := i.isLt
  have : i.toNat ≠ 255 := fun e => h (BitVec.eq_of_toNat_eq e)
  omega

theorem byte_pred (n : Byte) (h : n ≠ 0) : (n - 1).toNat = n.toNat - 1 := by
  have h1 := n.isLt
  have h2 : n.toNat ≠ 0 := fun e => h (BitVec.eq_of_toNat_eq e)
  rw [BitVec.toNat_sub]
  rw [show (1 : BitVec 8).toNat = 1 from rfl]
  omega

theorem mask_bits_of_size {cmds : List (Byte × Brkp)} {f : Nat → Brkp} {n : Byte}
    (hc : ∀ i : Byte, i ≠ 255 → f i.toNat = lastWritten cmds i)
    (hs : ∀ i : Byte, i ≠ 255 → (lastWritten cmds i).mask ≠ 0 → i.toNat < n.toNat) (j : Nat) :
    (orMasks f n.toNat).getLsbD j = true ↔ ∃ i : Byte, i ≠ 255 ∧ (lastWritten cmds i).mask.getLsbD j = true := by
  rw [orMasks_bit]
  constructor
  · rintro ⟨i, h1, h2⟩
    have hn := n.isLt
    have hi : (BitVec.ofNat 8 i).toNat = i := byte_ofNat i (by omega)
    have h3 : BitVec.ofNat 8 i ≠ (255 : Byte) := by
      intro e
      have := congrArg BitVec.toNat e
      rw [hi] at this
      rw [show (255 : Byte).toNat = 255 from rfl] at this
      omega
    refine ⟨BitVec.ofNat 8 i, h3, ?_⟩
    rw [← hc _ h3, hi]; exact h2
  · rintro ⟨i, h1, h2⟩
    refine ⟨i.toNat, hs i h1 ?_, by rw [hc i h1]; exact h2⟩
    intro e; rw [e] at h2; simp at h2

theorem inSync_init : InSync [] init where
  content _ _ := rfl
  size i _ h := absurd rfl h
  tight h := absurd rfl h
  kinds j := by simp [init, lastWritten]

theorem inSync_set {cmds : List (Byte × Brkp)} {d : Dbg} (h : InSync cmds d) (id : Byte) (b : Brkp) (hid : id ≠ 255) :
    InSync (cmds ++ [(id, b)]) (brkpSet d id b) := by
  have hidn := byte_ne_255 id hid
  have hcontent : ∀ i : Byte, i ≠ 255 → upd d.brkps id.toNat b i.toNat = lastWritten (cmds ++ [(id, b)]) i := by
    intro i hi
    rw [lastWritten_append]
    by_cases e : i = id
    · rw [e, upd_same, if_pos rfl]
    · rw [upd_other _ _ (fun x => e (BitVec.eq_of_toNat_eq x)), if_neg e, h.content i hi]
  have hnl := d.nbrkps.isLt
  have hsle := shrink_le (upd d.brkps id.toNat b) d.nbrkps.toNat
  -- the new size
  obtain ⟨n, hn⟩ : ∃ n : Byte, n = (if b.mask = 0 then BitVec.ofNat 8 (shrink (upd d.brkps id.toNat b) d.nbrkps.toNat)
      else if d.nbrkps.toNat ≤ id.toNat then id + 1 else d.nbrkps) := ⟨_, rfl⟩
  have hid1 : (id + 1).toNat = id.toNat + 1 := by
    rw [BitVec.toNat_add, show (1 : BitVec 8).toNat = 1 from rfl]; omega
  have hsize : ∀ i : Byte, i ≠ 255 → (lastWritten (cmds ++ [(id, b)]) i).mask ≠ 0 → i.toNat < n.toNat := by
    intro i hi hl
    rw [hn]
    split
    · rename_i hb
      have hne : i ≠ id := by
        rintro rfl
        rw [lastWritten_append, if_pos rfl] at hl; exact hl hb
      have hold : (lastWritten cmds i).mask ≠ 0 := by
        rw [lastWritten_append, if_neg hne] at hl; exact hl
      rw [byte_ofNat _ (by omega)]
      by_contra hc
      have := shrink_above (upd d.brkps id.toNat b) d.nbrkps.toNat i.toNat (by omega) (h.size i hi hold)
      rw [hcontent i hi] at this
      exact hl this
    · rename_i hb
      by_cases hne : i = id
      · subst hne
        split
        · omega
        · omega
      · have hold : (lastWritten cmds i).mask ≠ 0 := by
          rw [lastWritten_append, if_neg hne] at hl; exact hl
        have := h.size i hi hold
        split <;> omega
  have htight : n ≠ 0 → (lastWritten (cmds ++ [(id, b)]) (n - 1)).mask ≠ 0 := by
    intro hn0
    have hp := byte_pred n hn0
    have hlt := n.isLt
    have hnz : n.toNat ≠ 0 := fun e => hn0 (BitVec.eq_of_toNat_eq e)
    have hne : n - 1 ≠ 255 := by
      intro e
      have := congrArg BitVec.toNat e
      rw [hp, show (255 : BitVec 8).toNat = 255 from rfl] at this; omega
    rw [← hcontent _ hne, hp]
    by_cases hb : b.mask = 0
    · rw [if_pos hb] at hn
      have e : n.toNat = shrink (upd d.brkps id.toNat b) d.nbrkps.toNat := by rw [hn]; exact byte_ofNat _ (by omega)
      rw [e]
      exact shrink_top _ _ (by omega)
    · rw [if_neg hb] at hn
      by_cases hle : d.nbrkps.toNat ≤ id.toNat
      · rw [if_pos hle] at hn
        rw [hn, hid1, Nat.add_sub_cancel, upd_same]; exact hb
      · rw [if_neg hle] at hn
        subst hn
        by_cases e : d.nbrkps.toNat - 1 = id.toNat
        · rw [e, upd_same]; exact hb
        · rw [upd_other _ _ e]
          have := h.tight hn0
          rw [← h.content _ hne, hp] at this; exact this
  have heq : brkpSet d id b = { d with brkps := upd d.brkps id.toNat b, nbrkps := n, brkpMask := orMasks (upd d.brkps id.toNat b) n.toNat } := by
    unfold brkpSet
    rw [if_pos (show id ≠ NONE from hid), hn]
  rw [heq]
  exact ⟨hcontent, hsize, htight, mask_bits_of_size hcontent hsize⟩

theorem brkpSet_none (d : Dbg) (b : Brkp) : brkpSet d 255 b = d := by
  unfold brkpSet; rw [if_neg (by decide)]

/-- **C24**, the table. After any sequence of breakpoint commands (the identifier 255 is ignored) reading a breakpoint
gives what was last written, the size is one more than the highest live identifier, and the kind mask is the union of
the kinds of the live breakpoints. -/
theorem C24_table (cmds : List (Byte × Brkp)) :
    InSync (cmds.filter fun c => c.1 ≠ 255) (cmds.foldl (fun d c => brkpSet d c.1 c.2) init) := by
  have key : ∀ (cmds old : List (Byte × Brkp)) (d : Dbg), InSync old d →
      InSync (old ++ cmds.filter fun c => c.1 ≠ 255) (cmds.foldl (fun d c => brkpSet d c.1 c.2) d) := by
    intro cmds
    induction cmds with
    | nil => intro old d h; simpa using h
    | cons c cs ih =>
      intro old d h
      obtain ⟨i, b⟩ := c
      by_cases hi : i = 255
      · subst hi
        rw [List.foldl_cons, brkpSet_none, List.filter_cons_of_neg (by simp)]
        exact ih old d h
      · rw [List.foldl_cons, List.filter_cons_of_pos (by simpa using hi), List.append_cons]
        exact ih _ _ (inSync_set h i b hi)
  have := key cmds [] init inSync_init
  simpa using this

/-- Reading a breakpoint back through the command. -/
theorem C24_get {σ : Type} (H : Host σ) (pc : Short) (cmds : List (Byte × Brkp)) (d : Dbg) (h : InSync cmds d) (id : Byte)
    (hid : id ≠ 255) (vm : VM) (s : σ) :
    answer H pc (.brkpGet id) vm s d = .ok (.brkp (some (lastWritten cmds id)), vm, s, d) := by
  have := byte_ne_255 id hid
  simp only [answer, brkpAt, bind, Except.bind, pure, Except.pure]
  rw [if_pos (show id ≠ NONE from hid), if_pos this, h.content id hid]

/-- Setting 3 and 7 and clearing 7 and 9 again leaves breakpoint 3 alone. -/
example : let cmds : List (Byte × Brkp) := [(3, ⟨0x100, 6⟩), (7, ⟨0x200, 0x12⟩), (255, ⟨1, 1⟩), (9, ⟨5, 0⟩), (7, ⟨0x200, 0⟩)]
    let d : Dbg := cmds.foldl (fun d c => brkpSet d c.1 c.2) init
    d.nbrkps = 4 ∧ d.brkpMask = 6 ∧ d.brkps 3 = ⟨0x100, 6⟩ ∧ shouldHook d = true := by decide

/-! ## Which breakpoint is hit: specification in terms of the instruction set -/

variable {σ : Type}

/-- The operation the machine is about to carry out, with its operand size; `none` for BRK, LIT and the immediate
jumps. -/
def nextAction (s : Sys σ) : Option (Action × Nat) :=
  let opcode := s.vm.memory s.pc
  let n := if opcode.getLsbD 5 then 2 else 1
  let ret := opcode.getLsbD 6
  match opcode.toNat % 32 with
  | 0 => none
  | b + 1 =>
    mnemonics[b]?.map fun op =>
      let sizes := operandSizes n op
      (action n ((s.pc + 1) % 65536) op
        (operandsAt (stack ret s.vm) (ptr ret s.vm - BitVec.ofNat 8 sizes.sum) sizes), n)

/-- The cells an `n`-byte access touches. -/
def cells (a page n : Nat) : List Nat := if n = 2 then [a % page, (a + 1) % page] else [a % page]

/-- Memory cells the next instruction loads, memory cells it stores, ports it reads, ports it writes. -/
def loads (s : Sys σ) : List Nat :=
  match nextAction s with
  | some (.load a page, n) => cells a page n
  | _ => []
def stores (s : Sys σ) : List Nat :=
  match nextAction s with
  | some (.store a page _, n) => cells a page n
  | _ => []
def portsIn (s : Sys σ) : List Nat :=
  match nextAction s with
  | some (.deviceIn p, n) => cells p 256 n
  | _ => []
def portsOut (s : Sys σ) : List Nat :=
  match nextAction s with
  | some (.deviceOut p _, n) => cells p 256 n
  | _ => []

/-- When a breakpoint applies, from `core.h:19-25` and the comments in `core.c`: bit 0 chooses between memory and
devices, bit 2 is execution (for a device: the program was just started through the vector in that port), bit 3 reading,
bit 4 writing. -/
def Applies (b : Brkp) (started : Prop) (s : Sys σ) : Prop :=
  if b.mask.getLsbD 0 then
    (b.mask.getLsbD 2 ∧ started ∧
      (s.vm.device (b.addr.setWidth 8)).toNat * 256 + (s.vm.device (b.addr.setWidth 8 + 1)).toNat = s.pc)
    ∨ (b.mask.getLsbD 3 ∧ b.addr.toNat ∈ portsIn s) ∨ (b.mask.getLsbD 4 ∧ b.addr.toNat ∈ portsOut s)
  else
    (b.mask.getLsbD 2 ∧ b.addr.toNat = s.pc)
    ∨ (b.mask.getLsbD 3 ∧ b.addr.toNat ∈ loads s) ∨ (b.mask.getLsbD 4 ∧ b.addr.toNat ∈ stores s)

/-- The next instruction is a short access at the last cell of the zero page or at the last port. -/
def AtPageEnd (s : Sys σ) : Prop :=
  ∃ v, nextAction s = some (.load 255 256, 2) ∨ nextAction s = some (.store 255 256 v, 2) ∨
    nextAction s = some (.deviceIn 255, 2) ∨ nextAction s = some (.deviceOut 255 v, 2)


theorem base_nat (b : Byte) (k : Byte) : (b &&& 0x1f = k) ↔ b.toNat % 32 = k.toNat := by
  have h : (b &&& 0x1f).toNat = b.toNat % 32 := by revert b; decide +kernel
  rw [← h]
  exact ⟨fun e => by rw [e], fun e => BitVec.eq_of_toNat_eq e⟩
theorem bit6 (b : Byte) : decide (b &&& 0x40 ≠ 0) = b.getLsbD 6 := by revert b; decide +kernel
theorem bit5 (b : Byte) : decide (b &&& 0x20 ≠ 0) = b.getLsbD 5 := by revert b; decide +kernel

theorem selStack_eq (r : Bool) (vm : VM) : selStack r vm = stack r vm := rfl
theorem selSp_eq (r : Bool) (vm : VM) : selSp r vm = ptr r vm := rfl

/-- The eight instructions the debugger decodes, and the others. -/
theorem nextAction_cases (s : Sys σ) :
    let b := s.vm.memory s.pc
    let n := if b.getLsbD 5 then 2 else 1
    let r := b.getLsbD 6
    let st := stack r s.vm
    let p := ptr r s.vm
    let top := (st (p - 1)).toNat
    let next := (s.pc + 1) % 65536
    let abs := (st (p - 2)).toNat * 256 + (st (p - 1)).toNat
    (b.toNat % 32 = 0x10 ∧ nextAction s = some (.load top 256, n)) ∨
    (b.toNat % 32 = 0x11 ∧ ∃ v, nextAction s = some (.store top 256 v, n)) ∨
    (b.toNat % 32 = 0x12 ∧ nextAction s = some (.load (relative next top) 65536, n)) ∨
    (b.toNat % 32 = 0x13 ∧ ∃ v, nextAction s = some (.store (relative next top) 65536 v, n)) ∨
    (b.toNat % 32 = 0x14 ∧ nextAction s = some (.load abs 65536, n)) ∨
    (b.toNat % 32 = 0x15 ∧ ∃ v, nextAction s = some (.store abs 65536 v, n)) ∨
    (b.toNat % 32 = 0x16 ∧ nextAction s = some (.deviceIn top, n)) ∨
    (b.toNat % 32 = 0x17 ∧ ∃ v, nextAction s = some (.deviceOut top v, n)) ∨
    ((b.toNat % 32 < 0x10 ∨ 0x17 < b.toNat % 32) ∧ loads s = [] ∧ stores s = [] ∧ portsIn s = [] ∧ portsOut s = []) := by
  intro b n r st p top next abs
  have hp1 : p - BitVec.ofNat 8 2 + 1 = p - 1 := by
    apply BitVec.eq_of_toNat_eq
    simp [BitVec.toNat_add, BitVec.toNat_sub]; omega
  have hp2 : p - BitVec.ofNat 8 3 + 2 = p - 1 := by
    apply BitVec.eq_of_toNat_eq
    simp [BitVec.toNat_add, BitVec.toNat_sub]; omega
  have hp3 : p - BitVec.ofNat 8 3 + 1 = p - 2 := by
    apply BitVec.eq_of_toNat_eq
    simp [BitVec.toNat_add, BitVec.toNat_sub]; omega
  have hp4 : p - BitVec.ofNat 8 4 + 2 = p - 2 := by
    apply BitVec.eq_of_toNat_eq
    simp [BitVec.toNat_add, BitVec.toNat_sub]; omega
  have hp5 : p - BitVec.ofNat 8 2 + 1 = p - 1 := hp1
  have hp6 : p - BitVec.ofNat 8 2 = p - 2 := rfl
  have hq : p - 2 + 1 = p - 1 := hp1
  have hk : b.toNat % 32 < 32 := Nat.mod_lt _ (by decide)
  have hn : nextAction s = (match b.toNat % 32 with
    | 0 => none
    | i + 1 => mnemonics[i]?.map fun op =>
        (action n next op (operandsAt st (p - BitVec.ofNat 8 (operandSizes n op).sum) (operandSizes n op)), n)) := rfl
  unfold loads stores portsIn portsOut
  generalize hb : b.toNat % 32 = k at hn hk ⊢
  have hn12 : n = 1 ∨ n = 2 := by
    by_cases h : b.getLsbD 5 = true
    · exact Or.inr (if_pos h)
    · exact Or.inl (if_neg h)
  clear_value n
  have hz : (BitVec.ofNat 8 1 : Byte) = 1 := rfl
  have hz2 : (BitVec.ofNat 8 2 : Byte) = 2 := rfl
  have e16 : (p - BitVec.ofNat 8 (1 + 0)) = p - 1 := rfl
  interval_cases k
  all_goals try (exact Or.inr (Or.inr (Or.inr (Or.inr (Or.inr (Or.inr (Or.inr (Or.inr ⟨by omega,
    by rw [hn]; rcases hn12 with rfl | rfl <;> rfl, by rw [hn]; rcases hn12 with rfl | rfl <;> rfl,
    by rw [hn]; rcases hn12 with rfl | rfl <;> rfl, by rw [hn]; rcases hn12 with rfl | rfl <;> rfl⟩))))))))
  · exact Or.inr (Or.inr (Or.inr (Or.inr (Or.inr (Or.inr (Or.inr (Or.inr ⟨by omega, by rw [hn], by rw [hn], by rw [hn], by rw [hn]⟩)))))))
  · exact Or.inl ⟨rfl, hn⟩
  · refine Or.inr (Or.inl ⟨rfl, ?_⟩)
    rcases hn12 with rfl | rfl
    · exact ⟨_, hn.trans (by rw [show top = (st (p - BitVec.ofNat 8 2 + 1)).toNat by rw [hp1]]; rfl)⟩
    · exact ⟨_, hn.trans (by rw [show top = (st (p - BitVec.ofNat 8 3 + 2)).toNat by rw [hp2]]; rfl)⟩
  · exact Or.inr (Or.inr (Or.inl ⟨rfl, hn⟩))
  · refine Or.inr (Or.inr (Or.inr (Or.inl ⟨rfl, ?_⟩)))
    rcases hn12 with rfl | rfl
    · exact ⟨_, hn.trans (by rw [show top = (st (p - BitVec.ofNat 8 2 + 1)).toNat by rw [hp1]]; rfl)⟩
    · exact ⟨_, hn.trans (by rw [show top = (st (p - BitVec.ofNat 8 3 + 2)).toNat by rw [hp2]]; rfl)⟩
  · refine Or.inr (Or.inr (Or.inr (Or.inr (Or.inl ⟨rfl, ?_⟩))))
    exact hn.trans (by rw [show abs = (st (p - BitVec.ofNat 8 2)).toNat * 256 + (st (p - BitVec.ofNat 8 2 + 1)).toNat from by rw [hp1]; rfl]; rfl)
  · refine Or.inr (Or.inr (Or.inr (Or.inr (Or.inr (Or.inl ⟨rfl, ?_⟩)))))
    have h51 : p - BitVec.ofNat 8 3 + 1 + 1 = p - 1 := by rw [hp3]; exact hq
    have h52 : p - BitVec.ofNat 8 4 + 2 + 1 = p - 1 := by rw [hp4]; exact hq
    rcases hn12 with rfl | rfl
    · exact ⟨_, hn.trans (by rw [show abs = (st (p - BitVec.ofNat 8 3 + 1)).toNat * 256 + (st (p - BitVec.ofNat 8 3 + 1 + 1)).toNat by rw [h51, hp3]]; rfl)⟩
    · exact ⟨_, hn.trans (by rw [show abs = (st (p - BitVec.ofNat 8 4 + 2)).toNat * 256 + (st (p - BitVec.ofNat 8 4 + 2 + 1)).toNat by rw [h52, hp4]]; rfl)⟩
  · exact Or.inr (Or.inr (Or.inr (Or.inr (Or.inr (Or.inr (Or.inl ⟨rfl, hn⟩))))))
  · refine Or.inr (Or.inr (Or.inr (Or.inr (Or.inr (Or.inr (Or.inr (Or.inl ⟨rfl, ?_⟩)))))))
    rcases hn12 with rfl | rfl
    · exact ⟨_, hn.trans (by rw [show top = (st (p - BitVec.ofNat 8 2 + 1)).toNat by rw [hp1]]; rfl)⟩
    · exact ⟨_, hn.trans (by rw [show top = (st (p - BitVec.ofNat 8 3 + 2)).toNat by rw [hp2]]; rfl)⟩

theorem mem_cells_small (a : Byte) (s : Bool) (t : Short) (h : ¬ (a = 255 ∧ s = true)) :
    t.toNat ∈ cells a.toNat 256 (if s then 2 else 1) ↔
      ((a.setWidth 16 : Short) = t ∨ (a.setWidth 16 : Short) + (if s then 1 else 0) = t) := by
  have ha := a.isLt
  have h0 : (a.setWidth 16 : Short).toNat = a.toNat := by simp; omega
  have hs : a = 255 → s = false := fun e => by cases s <;> simp_all
  have h255 : s = true → a.toNat < 255 := fun e => byte_ne_255 a (fun e' => by rw [hs e'] at e; cases e)
  have hk : ∀ u : Short, u = t ↔ t.toNat = u.toNat :=
    fun u => ⟨fun e => by rw [e], fun e => BitVec.eq_of_toNat_eq e.symm⟩
  cases s
  · simp only [cells, hk]
    simp [h0]; omega
  · have := h255 rfl
    have h1 : ((a.setWidth 16 : Short) + 1).toNat = a.toNat + 1 := by
      rw [BitVec.toNat_add, h0, show (1 : BitVec 16).toNat = 1 from rfl]; omega
    simp only [cells, hk, if_true, h1, h0, List.mem_cons, List.not_mem_nil, or_false]
    rw [Nat.mod_eq_of_lt ha, Nat.mod_eq_of_lt (show a.toNat + 1 < 256 by omega)]

theorem mem_cells_large (a : Nat) (x : Short) (s : Bool) (t : Short) (hx : x.toNat = a) :
    t.toNat ∈ cells a 65536 (if s then 2 else 1) ↔ (x = t ∨ x + (if s then 1 else 0) = t) := by
  have ha := x.isLt
  have hk : ∀ u : Short, u = t ↔ t.toNat = u.toNat :=
    fun u => ⟨fun e => by rw [e], fun e => BitVec.eq_of_toNat_eq e.symm⟩
  cases s
  · simp only [cells, hk]
    simp; omega
  · have h1 : (x + 1).toNat = (a + 1) % 65536 := by
      rw [BitVec.toNat_add, hx, show (1 : BitVec 16).toNat = 1 from rfl]
    simp only [cells, hk, if_true, h1, hx, List.mem_cons, List.not_mem_nil, or_false]
    rw [Nat.mod_eq_of_lt (show a < 65536 by omega)]

theorem rel_toNat (pc : Short) (v : Byte) :
    (pc + 1 + v.signExtend 16 : Short).toNat = relative ((pc.toNat + 1) % 65536) v.toNat := by
  have h1 := pc.isLt
  have h2 := v.isLt
  have hs : (v.signExtend 16 : Short).toNat = if v.toNat < 128 then v.toNat else v.toNat + 65280 := by
    revert v; decide +kernel
  rw [BitVec.toNat_add, BitVec.toNat_add, hs, show (1 : BitVec 16).toNat = 1 from rfl]
  unfold relative signed
  split <;> omega

/-- The decoding of the debugger agrees with the instruction set, except at the end of a page. -/
theorem decode_spec (vm : VM) (h : σ) (pc : Short) (he : ¬ AtPageEnd (Sys.mk vm h pc.toNat)) (t : Short) :
    let x := decode (vm.memory pc.toNat) pc vm
    let s := Sys.mk vm h pc.toNat
    ((x.1 = .memLoad ∧ (x.2.1 = t ∨ x.2.2 = t)) ↔ t.toNat ∈ loads s) ∧
    ((x.1 = .memStore ∧ (x.2.1 = t ∨ x.2.2 = t)) ↔ t.toNat ∈ stores s) ∧
    ((x.1 = .devLoad ∧ (x.2.1 = t ∨ x.2.2 = t)) ↔ t.toNat ∈ portsIn s) ∧
    ((x.1 = .devStore ∧ (x.2.1 = t ∨ x.2.2 = t)) ↔ t.toNat ∈ portsOut s) := by
  intro x s
  have hc := nextAction_cases s
  dsimp only at hc
  have hb : s.vm.memory s.pc = vm.memory pc.toNat := rfl
  have hx : x = decode (vm.memory pc.toNat) pc vm := rfl
  clear_value x
  unfold decode at hx
  rw [bit6, bit5] at hx
  simp only [selStack_eq, selSp_eq, base_nat] at hx
  rw [hb] at hc
  have hvm : s.vm = vm := rfl
  have hpc : s.pc = pc.toNat := rfl
  rw [hvm, hpc] at hc
  generalize hr : (vm.memory pc.toNat).getLsbD 6 = r at hx hc
  generalize hsh : (vm.memory pc.toNat).getLsbD 5 = sh at hx hc
  generalize hk : (vm.memory pc.toNat).toNat % 32 = k at hx hc
  have hend : ∀ v, ¬ (nextAction s = some (.load 255 256, 2)) ∧ ¬ (nextAction s = some (.store 255 256 v, 2)) ∧
      ¬ (nextAction s = some (.deviceIn 255, 2)) ∧ ¬ (nextAction s = some (.deviceOut 255 v, 2)) := by
    intro v
    refine ⟨fun e => he ⟨v, Or.inl e⟩, fun e => he ⟨v, Or.inr (Or.inl e)⟩, fun e => he ⟨v, Or.inr (Or.inr (Or.inl e))⟩,
      fun e => he ⟨v, Or.inr (Or.inr (Or.inr e))⟩⟩
  have habs := join_toNat (stack r vm (ptr r vm - 2)) (stack r vm (ptr r vm - 1))
  have hrel := rel_toNat pc (stack r vm (ptr r vm - 1))
  generalize hlow : stack r vm (ptr r vm - 1) = low at hx hc habs hrel
  generalize hhigh : stack r vm (ptr r vm - 2) = high at hx hc habs
  rcases hc with ⟨rfl, hn⟩ | ⟨rfl, v, hn⟩ | ⟨rfl, hn⟩ | ⟨rfl, v, hn⟩ | ⟨rfl, hn⟩ | ⟨rfl, v, hn⟩ | ⟨rfl, hn⟩ | ⟨rfl, v, hn⟩ |
    ⟨hk, h1, h2, h3, h4⟩
  · have e := mem_cells_small low sh t (fun ⟨e1, e2⟩ => (hend 0).1 (by rw [hn, e1, e2]; rfl))
    subst hx
    refine ⟨?_, ?_, ?_, ?_⟩ <;> simp [loads, stores, portsIn, portsOut, hn, e]
  · have e := mem_cells_small low sh t (fun ⟨e1, e2⟩ => (hend v).2.1 (by rw [hn, e1, e2]; rfl))
    subst hx
    refine ⟨?_, ?_, ?_, ?_⟩ <;> simp [loads, stores, portsIn, portsOut, hn, e]
  · have e := mem_cells_large _ _ sh t hrel
    subst hx
    refine ⟨?_, ?_, ?_, ?_⟩ <;> simp [loads, stores, portsIn, portsOut, hn, e]
  · have e := mem_cells_large _ _ sh t hrel
    subst hx
    refine ⟨?_, ?_, ?_, ?_⟩ <;> simp [loads, stores, portsIn, portsOut, hn, e]
  · have e := mem_cells_large _ _ sh t habs
    subst hx
    refine ⟨?_, ?_, ?_, ?_⟩ <;> simp [loads, stores, portsIn, portsOut, hn, e]
  · have e := mem_cells_large _ _ sh t habs
    subst hx
    refine ⟨?_, ?_, ?_, ?_⟩ <;> simp [loads, stores, portsIn, portsOut, hn, e]
  · have e := mem_cells_small low sh t (fun ⟨e1, e2⟩ => (hend 0).2.2.1 (by rw [hn, e1, e2]; rfl))
    subst hx
    refine ⟨?_, ?_, ?_, ?_⟩ <;> simp [loads, stores, portsIn, portsOut, hn, e]
  · have e := mem_cells_small low sh t (fun ⟨e1, e2⟩ => (hend v).2.2.2 (by rw [hn, e1, e2]; rfl))
    subst hx
    refine ⟨?_, ?_, ?_, ?_⟩ <;> simp [loads, stores, portsIn, portsOut, hn, e]
  · rw [h1, h2, h3, h4]
    have hcls : x.1 = .other := by
      subst hx
      have a1 : ¬ k = (0x16 : Byte).toNat := by rw [show (0x16 : Byte).toNat = 0x16 from rfl]; omega
      have a2 : ¬ k = (0x17 : Byte).toNat := by rw [show (0x17 : Byte).toNat = 0x17 from rfl]; omega
      have a3 : ¬ k = (0x10 : Byte).toNat := by rw [show (0x10 : Byte).toNat = 0x10 from rfl]; omega
      have a4 : ¬ k = (0x11 : Byte).toNat := by rw [show (0x11 : Byte).toNat = 0x11 from rfl]; omega
      have a5 : ¬ k = (0x12 : Byte).toNat := by rw [show (0x12 : Byte).toNat = 0x12 from rfl]; omega
      have a6 : ¬ k = (0x13 : Byte).toNat := by rw [show (0x13 : Byte).toNat = 0x13 from rfl]; omega
      have a7 : ¬ k = (0x14 : Byte).toNat := by rw [show (0x14 : Byte).toNat = 0x14 from rfl]; omega
      have a8 : ¬ k = (0x15 : Byte).toNat := by rw [show (0x15 : Byte).toNat = 0x15 from rfl]; omega
      rw [if_neg a1, if_neg a2, if_neg a3, if_neg a4, if_neg a5, if_neg a6, if_neg a7, if_neg a8]
    rw [hcls]
    simp

theorem mask_dev (m : Byte) : (m &&& TYPE_MASK = DEV) ↔ m.getLsbD 0 = true := by revert m; decide +kernel
theorem mask_exec (m : Byte) : (m &&& EXEC ≠ 0) ↔ m.getLsbD 2 = true := by revert m; decide +kernel
theorem mask_load (m : Byte) : (m &&& LOAD ≠ 0) ↔ m.getLsbD 3 = true := by revert m; decide +kernel
theorem mask_store (m : Byte) : (m &&& STORE ≠ 0) ↔ m.getLsbD 4 = true := by revert m; decide +kernel
theorem mask_mem (m : Byte) : (m &&& (LOAD ||| STORE) ≠ 0) ↔ (m.getLsbD 3 = true ∨ m.getLsbD 4 = true) := by
  revert m; decide +kernel
theorem mask_pause (m : Byte) : (m &&& PAUSE ≠ 0) ↔ m.getLsbD 1 = true := by revert m; decide +kernel

/-- One breakpoint: the test of the code is the specified one. `x` is what the code decoded: it may have skipped the
decoding when no breakpoint wants it. -/
theorem brkpMatches_iff (b : Brkp) (started : Bool) (vm : VM) (h : σ) (pc : Short) (he : ¬ AtPageEnd (Sys.mk vm h pc.toNat))
    (x : OpClass × Short × Short)
    (hx : (b.mask.getLsbD 3 = true ∨ b.mask.getLsbD 4 = true) → x = decode (vm.memory pc.toNat) pc vm) :
    brkpMatches b started x.1 x.2.1 x.2.2 pc vm = true ↔ Applies b (started = true) (Sys.mk vm h pc.toNat) := by
  have hv : vm.devLoad2 (b.addr.setWidth 8) = pc ↔
      (vm.device (b.addr.setWidth 8)).toNat * 256 + (vm.device (b.addr.setWidth 8 + 1)).toNat = pc.toNat := by
    rw [← devLoad2_toNat]
    exact ⟨fun e => by rw [e], fun e => BitVec.eq_of_toNat_eq e⟩
  have ha : b.addr = pc ↔ b.addr.toNat = pc.toNat := ⟨fun e => by rw [e], fun e => BitVec.eq_of_toNat_eq e⟩
  have hd := decode_spec vm h pc he b.addr
  dsimp only at hd
  unfold brkpMatches Applies
  by_cases h0 : b.mask = 0
  · rw [if_pos h0, h0]; simp
  · rw [if_neg h0]
    by_cases hdev : b.mask.getLsbD 0 = true
    · rw [if_pos ((mask_dev _).mpr hdev), if_pos hdev]
      simp only [Bool.or_eq_true, Bool.and_eq_true, decide_eq_true_eq, mask_exec, mask_load, mask_store, hv]
      by_cases hm : b.mask.getLsbD 3 = true ∨ b.mask.getLsbD 4 = true
      · rw [hx hm]
        rw [← hd.2.2.1, ← hd.2.2.2]
        constructor
        · rintro ((⟨⟨a1, a2⟩, a3⟩ | ⟨⟨a1, a2⟩, a3⟩) | ⟨⟨a1, a2⟩, a3⟩)
          · exact Or.inl ⟨a1, a2, a3⟩
          · exact Or.inr (Or.inl ⟨a1, a2, a3⟩)
          · exact Or.inr (Or.inr ⟨a1, a2, a3⟩)
        · rintro (⟨a1, a2, a3⟩ | ⟨a1, a2, a3⟩ | ⟨a1, a2, a3⟩)
          · exact Or.inl (Or.inl ⟨⟨a1, a2⟩, a3⟩)
          · exact Or.inl (Or.inr ⟨⟨a1, a2⟩, a3⟩)
          · exact Or.inr ⟨⟨a1, a2⟩, a3⟩
      · rw [not_or] at hm
        constructor
        · rintro ((⟨⟨a1, a2⟩, a3⟩ | ⟨⟨a1, _⟩, _⟩) | ⟨⟨a1, _⟩, _⟩)
          · exact Or.inl ⟨a1, a2, a3⟩
          · exact absurd a1 hm.1
          · exact absurd a1 hm.2
        · rintro (⟨a1, a2, a3⟩ | ⟨a1, _⟩ | ⟨a1, _⟩)
          · exact Or.inl (Or.inl ⟨⟨a1, a2⟩, a3⟩)
          · exact absurd a1 hm.1
          · exact absurd a1 hm.2
    · rw [if_neg (fun e => hdev ((mask_dev _).mp e)), if_neg hdev]
      simp only [Bool.or_eq_true, Bool.and_eq_true, decide_eq_true_eq, mask_exec, mask_load, mask_store, ha]
      by_cases hm : b.mask.getLsbD 3 = true ∨ b.mask.getLsbD 4 = true
      · rw [hx hm]
        rw [← hd.1, ← hd.2.1]
        constructor
        · rintro ((⟨a1, a2⟩ | ⟨⟨a1, a2⟩, a3⟩) | ⟨⟨a1, a2⟩, a3⟩)
          · exact Or.inl ⟨a1, a2⟩
          · exact Or.inr (Or.inl ⟨a1, a2, a3⟩)
          · exact Or.inr (Or.inr ⟨a1, a2, a3⟩)
        · rintro (⟨a1, a2⟩ | ⟨a1, a2, a3⟩ | ⟨a1, a2, a3⟩)
          · exact Or.inl (Or.inl ⟨a1, a2⟩)
          · exact Or.inl (Or.inr ⟨⟨a1, a2⟩, a3⟩)
          · exact Or.inr ⟨⟨a1, a2⟩, a3⟩
      · rw [not_or] at hm
        constructor
        · rintro ((⟨a1, a2⟩ | ⟨⟨a1, _⟩, _⟩) | ⟨⟨a1, _⟩, _⟩)
          · exact Or.inl ⟨a1, a2⟩
          · exact absurd a1 hm.1
          · exact absurd a1 hm.2
        · rintro (⟨a1, a2⟩ | ⟨a1, _⟩ | ⟨a1, _⟩)
          · exact Or.inl (Or.inl ⟨a1, a2⟩)
          · exact absurd a1 hm.1
          · exact absurd a1 hm.2

theorem scan_spec (d : Dbg) (p : Brkp → Bool) (left i : Nat) (hl : i + left ≤ 255) :
    (scan d p i left = .ok NONE ∧ ∀ j, i ≤ j → j < i + left → p (d.brkps j) = false) ∨
    (∃ j, i ≤ j ∧ j < i + left ∧ scan d p i left = .ok (BitVec.ofNat 8 j) ∧ p (d.brkps j) = true ∧
      ∀ k, i ≤ k → k < j → p (d.brkps k) = false) := by
  induction left generalizing i with
  | zero => exact Or.inl ⟨rfl, fun j h1 h2 => by omega⟩
  | succ left ih =>
    have hs : scan d p i (left + 1) = if p (d.brkps i) then .ok (BitVec.ofNat 8 i) else scan d p (i + 1) left := by
      simp only [scan, brkpAt, bind, Except.bind]
      rw [if_pos (show i < 255 by omega)]
    by_cases hp : p (d.brkps i) = true
    · refine Or.inr ⟨i, Nat.le_refl _, by omega, ?_, hp, fun k h1 h2 => by omega⟩
      rw [hs, if_pos hp]
    · rw [hs, if_neg hp]
      rcases ih (i + 1) (by omega) with ⟨h1, h2⟩ | ⟨j, h1, h2, h3, h4, h5⟩
      · refine Or.inl ⟨h1, fun j a1 a2 => ?_⟩
        by_cases e : j = i
        · subst e; simpa using hp
        · exact h2 j (by omega) (by omega)
      · refine Or.inr ⟨j, by omega, by omega, h3, h4, fun k a1 a2 => ?_⟩
        by_cases e : k = i
        · subst e; simpa using hp
        · exact h5 k (by omega) a2

/-- Which breakpoint is reported: the one with the smallest identifier among those that apply, or none (255). -/
def IsHit (cmds : List (Byte × Brkp)) (started : Prop) (s : Sys σ) (hit : Byte) : Prop :=
  (hit ≠ 255 → Applies (lastWritten cmds hit) started s) ∧
  ∀ i : Byte, i ≠ 255 → i.toNat < hit.toNat → ¬ Applies (lastWritten cmds i) started s

theorem applies_live {b : Brkp} {st : Prop} {s : Sys σ} (h : Applies b st s) : b.mask ≠ 0 := by
  intro e
  unfold Applies at h
  rw [e] at h
  simp at h

/-- **C24**, which breakpoint is hit: with a table built by any sequence of commands, the debugger finds the first
breakpoint that applies to the instruction about to be executed, and none exactly if none applies.
Partial: not for short accesses at the end of the zero page or of the device page, see `C24_page_end_violated`. -/
theorem C24_hit_partial (cmds : List (Byte × Brkp)) (d : Dbg) (hs : InSync cmds d) (started : Bool) (vm : VM) (h : σ)
    (pc : Short) (hm : 65536 ≤ vm.memSize) (he : ¬ AtPageEnd (Sys.mk vm h pc.toNat)) :
    ∃ hit, hitBrkp d started pc vm = .ok hit ∧ IsHit cmds (started = true) (Sys.mk vm h pc.toNat) hit := by
  have hpc := pc.isLt
  have hnb := d.nbrkps.isLt
  by_cases hz : d.brkpMask = 0
  · refine ⟨255, ?_, fun e => absurd rfl e, ?_⟩
    · unfold hitBrkp; rw [if_neg (by simpa using hz)]; rfl
    · intro i hi _ ha
      have hl := applies_live ha
      obtain ⟨j, hj⟩ : ∃ j, (lastWritten cmds i).mask.getLsbD j = true := by
        by_contra hc
        apply hl
        apply BitVec.eq_of_getLsbD_eq
        intro j _
        cases hb : (lastWritten cmds i).mask.getLsbD j
        · simp
        · exact absurd ⟨j, hb⟩ hc
      have := (hs.kinds j).mpr ⟨i, hi, hj⟩
      rw [hz] at this
      simp at this
  · -- what was decoded
    obtain ⟨x, hx1, hx2⟩ : ∃ x : OpClass × Short × Short,
        hitBrkp d started pc vm = scan d (fun b => brkpMatches b started x.1 x.2.1 x.2.2 pc vm) 0 d.nbrkps.toNat ∧
        (d.brkpMask.getLsbD 3 = true ∨ d.brkpMask.getLsbD 4 = true → x = decode (vm.memory pc.toNat) pc vm) := by
      unfold hitBrkp
      rw [if_pos hz]
      by_cases hd : d.brkpMask &&& (LOAD ||| STORE) ≠ 0
      · refine ⟨decode (vm.memory pc.toNat) pc vm, ?_, fun _ => rfl⟩
        rw [if_pos hd, rd_ok _ _ (by omega)]; rfl
      · refine ⟨(.other, 0, 0), ?_, fun hc => absurd ((mask_mem _).mpr hc) hd⟩
        rw [if_neg hd]; rfl
    have hkind : ∀ i : Byte, i ≠ 255 →
        ((lastWritten cmds i).mask.getLsbD 3 = true ∨ (lastWritten cmds i).mask.getLsbD 4 = true) →
        x = decode (vm.memory pc.toNat) pc vm := by
      intro i hi hc
      apply hx2
      rcases hc with hc | hc
      · exact Or.inl ((hs.kinds 3).mpr ⟨i, hi, hc⟩)
      · exact Or.inr ((hs.kinds 4).mpr ⟨i, hi, hc⟩)
    have hmatch : ∀ i : Byte, i ≠ 255 →
        (brkpMatches (d.brkps i.toNat) started x.1 x.2.1 x.2.2 pc vm = true ↔
          Applies (lastWritten cmds i) (started = true) (Sys.mk vm h pc.toNat)) := by
      intro i hi
      rw [hs.content i hi]
      exact brkpMatches_iff _ _ _ _ _ he x (hkind i hi)
    rw [hx1]
    rcases scan_spec d (fun b => brkpMatches b started x.1 x.2.1 x.2.2 pc vm) d.nbrkps.toNat 0 (by omega) with
      ⟨h1, h2⟩ | ⟨j, h1, h2, h3, h4, h5⟩
    · refine ⟨255, h1, fun e => absurd rfl e, ?_⟩
      intro i hi _ ha
      have := h2 i.toNat (by omega) (by have := hs.size i hi (applies_live ha); omega)
      rw [(hmatch i hi).mpr ha] at this
      cases this
    · have hj : (BitVec.ofNat 8 j).toNat = j := byte_ofNat j (by omega)
      have hj' : BitVec.ofNat 8 j ≠ (255 : Byte) := by
        intro e
        have := congrArg BitVec.toNat e
        rw [hj, show (255 : Byte).toNat = 255 from rfl] at this
        omega
      refine ⟨BitVec.ofNat 8 j, h3, fun e => ?_, ?_⟩
      · have := hmatch _ hj'
        rw [hj] at this
        exact this.mp h4
      · intro i hi hlt ha
        rw [hj] at hlt
        have := h5 i.toNat (by omega) hlt
        rw [(hmatch i hi).mpr ha] at this
        cases this

/-- **C24**, watching memory: if an instruction other than a device access changes a memory cell, then a
store breakpoint at this cell applies to it. -/
theorem C24_watch (cfg : Cfg) (H : Host σ) (s s' : Sys σ) (e : cstep cfg H s = .ok (some s')) (a : Nat)
    (hc : s'.vm.memory a ≠ s.vm.memory a) (b : Brkp) (hb : b.addr.toNat = a) (hm : b.mask.getLsbD 0 = false)
    (hst : b.mask.getLsbD 4 = true)
    (hd : ∀ p v n, nextAction s ≠ some (.deviceIn p, n) ∧ nextAction s ≠ some (.deviceOut p v, n)) (st : Prop) :
    Applies b st s := by
  have hin : a ∈ stores s := by
    unfold cstep at e
    split at e
    · cases e
    · unfold Spec.step at e
      dsimp only at e
      split at e
      · exfalso
        split at e
        · cases e
        · cases e; exact hc (by rw [memory_setPtr])
        · cases e; exact hc rfl
        · cases e; exact hc (by rw [memory_pushValue])
        · cases e; exact hc (by rw [memory_pushValue])
      · rename_i k hk
        split at e
        · rename_i op hop
          have hna : nextAction s = some (action (if (s.vm.memory s.pc).getLsbD 5 then 2 else 1) ((s.pc + 1) % 65536) op
              (operandsAt (stack ((s.vm.memory s.pc).getLsbD 6) s.vm)
                (ptr ((s.vm.memory s.pc).getLsbD 6) s.vm - BitVec.ofNat 8 (operandSizes (if (s.vm.memory s.pc).getLsbD 5 then 2 else 1) op).sum)
                (operandSizes (if (s.vm.memory s.pc).getLsbD 5 then 2 else 1) op)), if (s.vm.memory s.pc).getLsbD 5 then 2 else 1) := by
            unfold nextAction
            dsimp only
            rw [hk]
            dsimp only
            rw [hop]; rfl
          unfold operation at e
          dsimp only at e
          generalize (if (s.vm.memory s.pc).getLsbD 5 then 2 else 1) = n at e hna
          generalize (s.vm.memory s.pc).getLsbD 6 = r at e hna
          generalize action n ((s.pc + 1) % 65536) op _ = act at e hna
          have hmem : ∀ q : Byte, (if (s.vm.memory s.pc).getLsbD 7 = true then s.vm else setPtr r q s.vm).memory = s.vm.memory := by
            intro q; split
            · rfl
            · exact memory_setPtr _ _ _
          cases act with
          | store a' page v =>
            have hst : stores s = cells a' page n := by unfold stores; rw [hna]
            rw [hst]
            cases e
            by_contra hn
            apply hc
            dsimp only
            unfold pokeMem cells at *
            split at hn
            · simp only [List.mem_cons, List.not_mem_nil, or_false, not_or] at hn
              rename_i h2
              rw [if_pos h2]
              dsimp only
              rw [upd_other _ _ hn.2, upd_other _ _ hn.1, hmem]
            · simp only [List.mem_cons, List.not_mem_nil, or_false] at hn
              rename_i h2
              rw [if_neg h2]
              dsimp only
              rw [upd_other _ _ hn, hmem]
          | deviceIn p => exact absurd hna (hd p 0 n).1
          | deviceOut p v => exact absurd hna (hd p v n).2
          | push vs => cases e; exact absurd (by dsimp only; rw [memory_pushAll, hmem]) hc
          | pushByte vs => cases e; exact absurd (by dsimp only; rw [memory_pushValue, hmem]) hc
          | stash vs => cases e; exact absurd (by dsimp only; rw [memory_pushValue, hmem]) hc
          | jump t => cases e; exact absurd (by dsimp only; rw [hmem]) hc
          | call t => cases e; exact absurd (by dsimp only; rw [memory_pushValue, hmem]) hc
          | load a' p => cases e; exact absurd (by dsimp only; rw [memory_pushValue, hmem]) hc
        · cases e
  unfold Applies
  rw [hm, if_neg (by decide)]
  refine Or.inr (Or.inr ⟨hst, ?_⟩)
  rw [hb]; exact hin

/-- The property is violated at the end of a page: `#1234 #ff STZ2` changes cell 0 of the zero page, which has a store
breakpoint with pause, but the debugger looks for a breakpoint at `0x100` and finds none. -/
theorem C24_page_end_violated :
    let d := brkpSet init 0 ⟨0x0000, 0x12⟩
    let vm : VM := { booted [0x31] with wsp := 3, ws := fun i => if i = 0 then 0x12 else if i = 1 then 0x34 else 0xff }
    hitBrkp d true 0x100 vm = .ok NONE ∧
    0 ∈ stores (Sys.mk vm () 0x100) ∧ Applies (lastWritten [(0, ⟨0x0000, 0x12⟩)] 0) True (Sys.mk vm () 0x100) := by
  refine ⟨by decide, by decide, ?_⟩
  unfold Applies
  rw [if_neg (by decide)]
  exact Or.inr (Or.inr ⟨by decide, by decide⟩)

/-- Not at the end of a page: `#1234 #10 STZ2` and a store breakpoint at `0x11`. -/
example :
    let d := brkpSet (brkpSet init 0 ⟨0x0010, 0x04⟩) 5 ⟨0x0011, 0x12⟩
    let vm : VM := { booted [0x31] with wsp := 3, ws := fun i => if i = 0 then 0x12 else if i = 1 then 0x34 else 0x10 }
    hitBrkp d true 0x100 vm = .ok 5 ∧ ¬ AtPageEnd (Sys.mk vm () 0x100) := by
  refine ⟨by decide, ?_⟩
  have h : nextAction (Sys.mk ({ booted [0x31] with wsp := 3, ws := fun i => if i = 0 then 0x12 else if i = 1 then 0x34 else 0x10 } : VM) () 0x100)
      = some (.store 0x10 256 0x1234, 2) := by rfl
  rintro ⟨v, h1 | h1 | h1 | h1⟩ <;> · rw [h] at h1; simp at h1

end Buxn.Dbg
