import Verif.Asm.Jumps
import Mathlib.Data.List.Perm.Basic
import Mathlib.Data.List.Nodup
import Mathlib.Data.List.Range
/-!
# C41: numbers and names of labels

The buffer in which a name is made for an anonymous label, and the numbers under which labels are announced.
-/

namespace Buxn.Asm
open Buxn.VM Spec

/-! ## The buffer -/

namespace Lambda

/-- Write a byte through the pointer and advance it; `none` when the pointer is outside the buffer. -/
def put (b : Byte) (r : Option (List Byte × Nat)) : Option (List Byte × Nat) :=
  r.bind fun (buf, p) => if p < buf.length then some (buf.set p b, p + 1) else none

/-- The loop of `asm.c:1649-1659` at step `i`, with `start_write`. -/
def digits (id : Short) : Nat → Nat → Bool → Option (List Byte × Nat) → Option (List Byte × Nat)
  | 0, _, _, r => r
  | n + 1, i, started, r =>
    let digit := (id.toNat / 2 ^ ((3 - i) * 4)) % 16
    if started || digit != 0 || decide (2 ≤ i) then
      digits id n (i + 1) true (put (if digit < 10 then ch '0' + BitVec.ofNat 8 digit else ch 'a' + (BitVec.ofNat 8 digit - 10)) r)
    else digits id n (i + 1) started r

/-- `buxn_asm_make_lambda_name`, `asm.c:1640-1666`: the name that is interned, `none` when a write is outside the buffer. The
buffer has `sizeof("@ffff") - 1` bytes. -/
def makeName (id : Short) : Option Str :=
  let r := put (ch '@') (some (List.replicate 5 0, 0))
  let r := digits id 4 0 false r
  -- `*name_ptr = 0`: the pointer is not advanced
  (put 0 r).map fun (buf, p) => buf.take (p - 1)

end Lambda

/-- What the buffer holds, by the digits. -/
theorem Lambda.makeName_digits (id : Short) :
    Lambda.makeName id = if id.toNat / 16 ^ 3 % 16 ≠ 0 then none else some (lambdaName id) := by
  have hx : ∀ n, (if n % 16 < 10 then ch '0' + BitVec.ofNat 8 (n % 16) else ch 'a' + (BitVec.ofNat 8 (n % 16) - 10)) = hexDigit (n % 16) := by
    intro n
    have hlt : n % 16 < 16 := Nat.mod_lt _ (by decide)
    generalize n % 16 = d at hlt
    revert d
    decide +kernel
  unfold Lambda.makeName lambdaName lambdaDigits
  have p1 : (2 : Nat) ^ ((3 - 0) * 4) = 16 ^ (3 - 0) := by decide
  have p2 : (2 : Nat) ^ ((3 - 1) * 4) = 16 ^ (3 - 1) := by decide
  have p3 : (2 : Nat) ^ ((3 - 2) * 4) = 16 ^ (3 - 2) := by decide
  have p4 : (2 : Nat) ^ ((3 - 3) * 4) = 16 ^ (3 - 3) := by decide
  simp only [Lambda.digits, hx, Nat.zero_add, Nat.reduceAdd, p1, p2, p3, p4]
  generalize id.toNat / 16 ^ (3 - 0) % 16 = d0
  generalize id.toNat / 16 ^ (3 - 1) % 16 = d1
  generalize id.toNat / 16 ^ (3 - 2) % 16 = d2
  generalize id.toNat / 16 ^ (3 - 3) % 16 = d3
  by_cases h0 : d0 = 0
  · by_cases h1 : d1 = 0
    · simp [h0, h1, Lambda.put]
    · simp [h0, h1, Lambda.put]
  · simp [h0, Lambda.put]

/-- **C41.** The name of a label with a number below 0x1000 is made inside its buffer. -/
theorem C41_buffer_partial (id : Short) (h : id < 0x1000) : Lambda.makeName id = some (lambdaName id) := by
  rw [Lambda.makeName_digits, if_neg]
  have : id.toNat < 0x1000 := h
  omega

/-- **C41 is violated**: from number 0x1000 on, the terminating zero is written behind the buffer. -/
theorem C41_buffer_violated (id : Short) (h : 0x1000 ≤ id) : Lambda.makeName id = none := by
  rw [Lambda.makeName_digits, if_pos]
  have : 0x1000 ≤ id.toNat := h
  have := id.isLt
  omega

/-- The value of a digit. -/
def digitValue (b : Byte) : Nat := if b.toNat < 0x3a then b.toNat - 0x30 else b.toNat - 0x57

/-- The value of a name, read as a number. -/
def nameValue (s : Str) : Nat := s.tail.foldl (fun n b => n * 16 + digitValue b) 0

theorem digitValue_hexDigit {d : Nat} (h : d < 16) : digitValue (hexDigit d) = d := by
  revert d; decide +kernel

theorem nameValue_lambdaName (id : Short) : nameValue (lambdaName id) = id.toNat := by
  have h0 := id.isLt
  have hv : ∀ x, digitValue (hexDigit (x % 16)) = x % 16 := fun x => digitValue_hexDigit (Nat.mod_lt _ (by decide))
  unfold lambdaName nameValue lambdaDigits
  dsimp only [List.tail]
  by_cases h1 : id.toNat / 16 ^ (3 - 0) % 16 = 0
  · by_cases h2 : id.toNat / 16 ^ (3 - 1) % 16 = 0
    · rw [if_neg (fun h => h h1), if_neg (fun h => h.elim (fun h => h h1) (fun h => h h2))]
      simp only [List.nil_append, List.foldl_cons, List.foldl_nil, hv]
      norm_num at h1 h2 ⊢
      omega
    · rw [if_neg (fun h => h h1), if_pos (.inr h2)]
      simp only [List.nil_append, List.cons_append, List.foldl_cons, List.foldl_nil, hv]
      norm_num at h1 h2 ⊢
      omega
  · rw [if_pos h1, if_pos (.inl h1)]
    simp only [List.nil_append, List.cons_append, List.foldl_cons, List.foldl_nil, hv]
    norm_num at h1 ⊢
    omega

/-- **C41.** Different numbers give different names. -/
theorem C41_names (a b : Short) (h : lambdaName a = lambdaName b) : a = b := by
  have := congrArg nameValue h
  rw [nameValue_lambdaName, nameValue_lambdaName] at this
  exact BitVec.eq_of_toNat_eq this

/-! ## Numbers -/

/-- Steps that announce no label and leave symbols and lambdas alone. -/
structure Still (s s' : Asm) : Prop where
  labels : labels s'.log = labels s.log
  symtab : s'.symtab = s.symtab
  names : s'.names = s.names
  lambdas : s'.lambdas = s.lambdas
  numLabels : s'.numLabels = s.numLabels

theorem Still.refl (s : Asm) : Still s s := ⟨rfl, rfl, rfl, rfl, rfl⟩

theorem Still.trans {a b c : Asm} (h : Still a b) (h' : Still b c) : Still a c :=
  ⟨h'.labels.trans h.labels, h'.symtab.trans h.symtab, h'.names.trans h.names, h'.lambdas.trans h.lambdas, h'.numLabels.trans h.numLabels⟩

theorem Still.andThen {s : Asm} {r : Bool × Asm} {f : Asm → Bool × Asm} (h : Still s r.2) (hf : ∀ s', Still s' (f s').2) : Still s (andThen r f).2 := by
  unfold Asm.andThen
  split
  · exact h.trans (hf _)
  · exact h

theorem error_still (m : String) (r : Region) (s : Asm) : Still s (error m r s).2 := ⟨rfl, rfl, rfl, rfl, rfl⟩

theorem putSymbol_still (a : Short) (i : SymInfo) (s : Asm) (hi : i.type ≠ .label) : Still s (putSymbol a i s) :=
  ⟨by simp [putSymbol, labels, hi], rfl, rfl, rfl, rfl⟩

theorem putSymbol2_still (a : Short) (i : SymInfo) (s : Asm) (hi : i.type ≠ .label) : Still s (putSymbol2 a i s) :=
  (putSymbol_still a i s hi).trans (putSymbol_still _ i _ hi)

theorem emit_still (t : Token) (b : Byte) (p : Bool) (s : Asm) : Still s (emit t b p s).2 := by
  unfold emit
  dsimp only
  split
  · exact ⟨rfl, rfl, rfl, rfl, rfl⟩
  · exact ⟨rfl, rfl, rfl, rfl, rfl⟩

theorem emit2_still (t : Token) (x : Short) (p : Bool) (s : Asm) : Still s (emit2 t x p s).2 :=
  Still.andThen (emit_still _ _ _ _) fun _ => Still.andThen (emit_still _ _ _ _) fun s => .refl s

theorem markRef_still (a : Short) (k : RefKind) (z : RefSize) (n : Option Str) (id : Short) (s : Asm) : Still s (markRef a k z n id s) := ⟨rfl, rfl, rfl, rfl, rfl⟩

theorem emitPlaceholder_still (t : Token) (k : RefKind) (z : RefSize) (n : Option Str) (id : Short) (r : Bool) (s : Asm) : Still s (emitPlaceholder t k z n id r s).2 := by
  unfold emitPlaceholder
  cases z with
  | byte => exact Still.andThen (emit_still _ _ _ _) fun s => (markRef_still _ _ _ _ _ s).trans (putSymbol_still _ _ _ (by simp))
  | short => exact Still.andThen (emit2_still _ _ _ _) fun s => (markRef_still _ _ _ _ _ s).trans (putSymbol2_still _ _ _ (by simp))

theorem calculateAddr_still (t : Token) (k : RefKind) (a l : Short) (s : Asm) : Still s (calculateAddr t k a l s).2 := by
  unfold calculateAddr
  cases k with
  | zero =>
    dsimp only
    split
    · exact ⟨rfl, rfl, rfl, rfl, rfl⟩
    · exact .refl s
  | abs => exact .refl s
  | rel => exact .refl s

theorem emitAddr_still (t : Token) (k : RefKind) (z : RefSize) (v : Int) (i : Option SymInfo) (p : Bool) (s : Asm) (hi : ∀ x, i = some x → x.type ≠ .label) :
    Still s (emitAddr t k z v i p s).2 := by
  unfold emitAddr
  cases z with
  | byte =>
    dsimp only
    split
    · exact error_still _ _ _
    · refine Still.andThen (emit_still _ _ _ _) fun s => ?_
      cases i with
      | none => exact .refl s
      | some x => exact putSymbol_still _ _ _ (hi x rfl)
  | short =>
    refine Still.andThen (emit2_still _ _ _ _) fun s => ?_
    cases i with
    | none => exact .refl s
    | some x => exact putSymbol2_still _ _ _ (hi x rfl)

theorem emitBackwardRef_still (t : Token) (k : RefKind) (z : RefSize) (n : Option Str) (id l : Short) (w r : Bool) (s : Asm) : Still s (emitBackwardRef t k z n id l w r s).2 := by
  unfold emitBackwardRef
  dsimp only
  have h := calculateAddr_still t k s.writeAddr l s
  generalize calculateAddr t k s.writeAddr l s = p at h
  obtain ⟨v, s1⟩ := p
  refine h.trans (Still.andThen (emitAddr_still _ _ _ _ _ _ _ ?_) fun s => ?_)
  · intro x hx
    split at hx
    · cases hx; simp
    · cases hx
  · dsimp only
    split
    · exact markRef_still _ _ _ _ _ s
    · exact .refl s

theorem patchAll_still (name : Str) (id l : Short) (fs : List FRef) (s : Asm) : Still s (patchAll name id l fs s) := by
  induction fs generalizing s with
  | nil => exact .refl s
  | cons f fs ih =>
    rw [patchAll]
    have h1 : Still s { s with writeAddr := f.addr } := ⟨rfl, rfl, rfl, rfl, rfl⟩
    have h2 := emitBackwardRef_still f.token f.kind f.size (some name) id l false false { s with writeAddr := f.addr }
    exact (h1.trans h2).trans (ih _)

/-- The first `n` numbers, as they are counted in 16 bits. -/
def counted (n : Nat) : List Short := (List.range n).map fun i => BitVec.ofNat 16 (i + 1)

theorem counted_succ (n : Nat) : counted (n + 1) = counted n ++ [BitVec.ofNat 16 (n + 1)] := by
  unfold counted
  rw [List.range_succ, List.map_append]
  rfl

/-- The names that are waiting for their label, with its number. -/
def Waiting (s : Asm) (F : List (Str × Short)) : Prop :=
  (F.map (·.1)).Nodup ∧ ∀ name id, (name, id) ∈ F ↔ ∃ n refs, s.symtab name = some n ∧ n.entry = .forward id refs

/-- The numbers given out so far belong to the labels announced, the open lambdas and the names that wait for a label. -/
structure Ledger (s : Asm) : Prop where
  numbers : ∃ F N, Waiting s F ∧ s.numLabels = BitVec.ofNat 16 N ∧
    ((labels s.log).map (·.2.id) ++ (s.lambdas.map (·.labelId) ++ F.map (·.2))).Perm (counted N)
  used : ∀ name n id, s.symtab name = some n → n.entry ≠ .forward id []
  names : ∀ name n, s.symtab name = some n → name ∈ s.names

def KeepsLedger (s s' : Asm) : Prop := Ext s s' ∧ (s'.success = true → Ledger s → Ledger s')

/-- Only the labels, the symbols, the lambdas and the counter matter. -/
theorem Ledger.still {s s' : Asm} (h : Still s s') (g : Ledger s) : Ledger s' := by
  obtain ⟨⟨F, N, hF, hN, hp⟩, hu, hn⟩ := g
  refine ⟨⟨F, N, ⟨hF.1, ?_⟩, h.numLabels.trans hN, ?_⟩, ?_, ?_⟩
  · rw [h.symtab]; exact hF.2
  · rw [h.labels, h.lambdas]; exact hp
  · rw [h.symtab]; exact hu
  · rw [h.symtab, h.names]; exact hn

def notForward (e : Entry) : Prop := ∀ id fs, e ≠ .forward id fs

/-- A symbol that does not wait for a label before nor after. -/
theorem Ledger.setOther {s : Asm} (g : Ledger s) (name : Str) (n : Node) (hn : notForward n.entry) (ho : ∀ m, s.symtab name = some m → notForward m.entry)
    (l : List Str) (hl : name ∈ l ∧ ∀ x ∈ s.names, x ∈ l) : Ledger { setNode name n s with names := l } := by
  obtain ⟨⟨F, N, hF, hN, hp⟩, hu, hnm⟩ := g
  refine ⟨⟨F, N, ⟨hF.1, ?_⟩, hN, hp⟩, ?_, ?_⟩
  · intro nm id
    rw [hF.2]
    by_cases h : nm = name
    · subst h
      constructor
      · rintro ⟨m, fs, hm, he⟩
        exact absurd he (ho m hm id fs)
      · rintro ⟨m, fs, hm, he⟩
        simp only [Asm.setNode, if_true, Option.some.injEq] at hm
        subst hm
        exact absurd he (hn id fs)
    · simp only [Asm.setNode, if_neg h]
  · intro nm m id hm
    simp only [Asm.setNode] at hm
    split at hm
    · cases hm; exact hn id []
    · exact hu nm m id hm
  · intro nm m hm
    simp only [Asm.setNode] at hm
    split at hm
    · rename_i h; rw [h]; exact hl.1
    · exact hl.2 _ (hnm nm m hm)

theorem notForward_unknown : notForward .unknown := fun _ _ h => by cases h
theorem notForward_label (a b : Short) : notForward (.label a b) := fun _ _ h => by cases h

/-- A change of a symbol that keeps what it is. -/
theorem Ledger.setSame {s : Asm} (g : Ledger s) (name : Str) (n m : Node) (hm : s.symtab name = some m) (he : n.entry = m.entry) : Ledger (setNode name n s) := by
  obtain ⟨⟨F, N, hF, hN, hp⟩, hu, hnm⟩ := g
  have key : ∀ nm (P : Entry → Prop), (∃ x, (Asm.setNode name n s).symtab nm = some x ∧ P x.entry) ↔ ∃ x, s.symtab nm = some x ∧ P x.entry := by
    intro nm P
    simp only [Asm.setNode]
    by_cases h : nm = name
    · subst h
      simp only [if_true, hm, Option.some.injEq, exists_eq_left', he]
    · simp only [if_neg h]
  refine ⟨⟨F, N, ⟨hF.1, ?_⟩, hN, hp⟩, ?_, ?_⟩
  · intro nm id
    rw [hF.2]
    constructor
    · rintro ⟨x, fs, h1, h2⟩
      obtain ⟨y, h3, h4⟩ := (key nm (· = .forward id fs)).2 ⟨x, h1, h2⟩
      exact ⟨y, fs, h3, h4⟩
    · rintro ⟨x, fs, h1, h2⟩
      obtain ⟨y, h3, h4⟩ := (key nm (· = .forward id fs)).1 ⟨x, h1, h2⟩
      exact ⟨y, fs, h3, h4⟩
  · intro nm x id hx h
    obtain ⟨y, h3, h4⟩ := (key nm (· = .forward id [])).1 ⟨x, hx, h⟩
    exact hu nm y id h3 h4
  · intro nm x hx
    simp only [Asm.setNode] at hx
    split at hx
    · rename_i h; rw [h]; exact hnm name m hm
    · exact hnm nm x hx

theorem next_number {s : Asm} {N : Nat} (h : s.numLabels = BitVec.ofNat 16 N) : s.numLabels + 1 = BitVec.ofNat 16 (N + 1) := by
  rw [h]
  apply BitVec.eq_of_toNat_eq
  simp

/-- A new label. -/
theorem perm_label {L M F : List Short} {N : Nat} (h : (L ++ (M ++ F)).Perm (counted N)) (x : Short) (hx : x = BitVec.ofNat 16 (N + 1)) :
    (x :: L ++ (M ++ F)).Perm (counted (N + 1)) := by
  rw [counted_succ, ← hx]
  exact (List.Perm.cons x h).trans (List.perm_append_singleton _ _).symm

theorem perm_lambda {L M F : List Short} {N : Nat} (h : (L ++ (M ++ F)).Perm (counted N)) (x : Short) (hx : x = BitVec.ofNat 16 (N + 1)) :
    (L ++ (x :: M ++ F)).Perm (counted (N + 1)) :=
  (List.perm_middle (a := x) (l₁ := L) (l₂ := M ++ F)).trans (perm_label h x hx)

theorem perm_name {L M F : List Short} {N : Nat} (h : (L ++ (M ++ F)).Perm (counted N)) (x : Short) (hx : x = BitVec.ofNat 16 (N + 1)) :
    (L ++ (M ++ x :: F)).Perm (counted (N + 1)) :=
  ((List.perm_middle (a := x) (l₁ := M) (l₂ := F)).append_left L).trans (perm_lambda h x hx)

theorem emitForwardRef_ledger (t : Token) (k : RefKind) (z : RefSize) (name : Str) (n : Node) (r : Bool) (s : Asm) (hn : s.symtab name = some n)
    (hf : isForward n.entry) (hs' : (emitForwardRef t k z name n r s).2.success = true) (g : Ledger s) : Ledger (emitForwardRef t k z name n r s).2 := by
  unfold emitForwardRef addForwardRef at *
  dsimp only at *
  obtain ⟨_, he⟩ := andThen_ok (P := True) (fun h => ⟨(emitPlaceholder_step t k z (some name) _ r _ h).1, trivial⟩) (setNode_ext _ _ _) hs'
  rw [he]
  have st := emitPlaceholder_still t k z (some name) (forwardOf n.entry (s.numLabels + 1)).1 r
    (setNode name { n with entry := .forward (forwardOf n.entry (s.numLabels + 1)).1 (forwardOf n.entry (s.numLabels + 1)).2 } (numberLabel n.entry s))
  clear he hs'
  generalize emitPlaceholder t k z (some name) (forwardOf n.entry (s.numLabels + 1)).1 r
    (setNode name { n with entry := .forward (forwardOf n.entry (s.numLabels + 1)).1 (forwardOf n.entry (s.numLabels + 1)).2 } (numberLabel n.entry s)) = p at *
  obtain ⟨b, s1⟩ := p
  dsimp only at *
  obtain ⟨⟨F, N, hF, hN, hp⟩, hu, hnm⟩ := g
  cases hent : n.entry with
  | label a b => rw [hent] at hf; cases hf
  | «macro» a b c => rw [hent] at hf; cases hf
  | forward id fs =>
    rw [hent] at st
    simp only [forwardOf, numberLabel, reduceCtorEq, if_false] at st ⊢
    refine ⟨⟨F, N, ⟨hF.1, ?_⟩, st.numLabels.trans hN, ?_⟩, ?_, ?_⟩
    · intro nm id'
      rw [hF.2]
      simp only [setNode, st.symtab]
      by_cases h : nm = name
      · subst h
        simp only [if_true, hn, Option.some.injEq, exists_eq_left', hent, exists_and_left]
        simp
      · simp only [if_neg h]
    · simp only [setNode]
      rw [st.labels, st.lambdas]; exact hp
    · intro nm m id' hm
      simp only [setNode, st.symtab] at hm
      split at hm
      · cases hm; simp
      · exact hu nm m id' hm
    · intro nm m hm
      simp only [setNode, st.symtab, st.names] at hm ⊢
      split at hm
      · rename_i h; rw [h]; exact hnm name n hn
      · exact hnm nm m hm
  | unknown =>
    rw [hent] at st
    simp only [forwardOf, numberLabel, if_true] at st ⊢
    have hnew : ∀ id, (name, id) ∉ F := by
      intro id h
      obtain ⟨m, fs, hm, h2⟩ := (hF.2 name id).1 h
      rw [hn] at hm; cases hm
      rw [hent] at h2; cases h2
    refine ⟨⟨(name, s.numLabels + 1) :: F, N + 1, ⟨?_, ?_⟩, ?_, ?_⟩, ?_, ?_⟩
    · rw [List.map_cons, List.nodup_cons]
      refine ⟨fun h => ?_, hF.1⟩
      obtain ⟨⟨a, b⟩, h1, h2⟩ := List.mem_map.1 h
      dsimp only at h2
      subst h2
      exact hnew b h1
    · intro nm id'
      rw [List.mem_cons, hF.2]
      simp only [setNode, st.symtab]
      by_cases h : nm = name
      · subst h
        simp only [if_true, Option.some.injEq, hn]
        constructor
        · rintro (h | ⟨m, fs, rfl, h⟩)
          · simp only [Prod.mk.injEq, true_and] at h
            exact ⟨_, _, rfl, by rw [h]⟩
          · rw [hent] at h; cases h
        · rintro ⟨m, fs, rfl, h⟩
          simp only [Entry.forward.injEq] at h
          left; rw [h.1]
      · simp only [if_neg h]
        constructor
        · rintro (h' | h')
          · cases h'; exact absurd rfl h
          · exact h'
        · exact .inr
    · exact st.numLabels.trans (next_number hN)
    · simp only [setNode]
      rw [st.labels, st.lambdas]
      exact perm_name hp _ (next_number hN)
    · intro nm m id' hm
      simp only [setNode, st.symtab] at hm
      split at hm
      · cases hm; simp
      · exact hu nm m id' hm
    · intro nm m hm
      simp only [setNode, st.symtab, st.names] at hm ⊢
      split at hm
      · rename_i h; rw [h]; exact hnm name n hn
      · exact hnm nm m hm

theorem emitLambdaRef_ledger (t : Token) (k : RefKind) (z : RefSize) (r : Bool) (s : Asm) (hs' : (emitLambdaRef t k z r s).2.success = true) (g : Ledger s) :
    Ledger (emitLambdaRef t k z r s).2 := by
  unfold emitLambdaRef at *
  dsimp only at *
  obtain ⟨_, he⟩ := andThen_ok (P := True) (fun h => ⟨(emitPlaceholder_step t k z none _ r _ h).1, trivial⟩) (.same rfl rfl) hs'
  rw [he]
  have st := emitPlaceholder_still t k z none (s.numLabels + 1) r { s with numLabels := s.numLabels + 1 }
  clear he hs'
  generalize emitPlaceholder t k z none (s.numLabels + 1) r { s with numLabels := s.numLabels + 1 } = p at *
  obtain ⟨b, s1⟩ := p
  dsimp only at *
  obtain ⟨⟨F, N, hF, hN, hp⟩, hu, hnm⟩ := g
  refine ⟨⟨F, N + 1, ⟨hF.1, ?_⟩, st.numLabels.trans (next_number hN), ?_⟩, ?_, ?_⟩
  · intro nm id
    rw [hF.2]
    show _ ↔ ∃ n refs, s1.symtab nm = some n ∧ _
    rw [st.symtab]
  · rw [st.labels, List.map_cons, st.lambdas]
    exact perm_lambda hp _ (next_number hN)
  · intro nm m id hm
    rw [show s1.symtab = s.symtab from st.symtab] at hm
    exact hu nm m id hm
  · intro nm m hm
    rw [show s1.symtab = s.symtab from st.symtab] at hm
    show nm ∈ s1.names
    rw [show s1.names = s.names from st.names]
    exact hnm nm m hm

theorem placeLabel_ledger (t : Token) (name : Str) (n : Node) (id : Short) (fs : List FRef) (s s0 : Asm) (hn : s0.symtab name = some n)
    (hlab : labels s.log = labels s0.log) (hsym : s.symtab = s0.symtab) (hnm : s.names = s0.names) (hlam : s.lambdas = s0.lambdas)
    (g : Ledger s0) (hk : (n.entry = .unknown ∧ id = s0.numLabels + 1 ∧ s.numLabels = s0.numLabels + 1) ∨ (n.entry = .forward id fs ∧ s.numLabels = s0.numLabels)) :
    Ledger (placeLabel t name n id fs s).2 := by
  unfold placeLabel
  dsimp only
  have st := patchAll_still name id s.writeAddr fs (setNode name { n with entry := .label id s.writeAddr } s)
  generalize patchAll name id s.writeAddr fs (setNode name { n with entry := .label id s.writeAddr } s) = s1 at st
  obtain ⟨⟨F, N, hF, hN, hp⟩, hu, hnms⟩ := g
  have hst : ∀ key, (setNode name { n with entry := .label id s.writeAddr, referenced := !fs.isEmpty } s1).symtab key =
      if key = name then some { n with entry := .label id s.writeAddr, referenced := !fs.isEmpty } else s0.symtab key := by
    intro key
    simp only [setNode, st.symtab, hsym]
    split
    · rfl
    · rfl
  have hl : labels (putSymbol s.writeAddr { type := .label, name := some name, region := t.region, id := id }
      { setNode name { n with entry := .label id s.writeAddr, referenced := !fs.isEmpty } s1 with writeAddr := s.writeAddr }).log =
      (s.writeAddr, { type := .label, name := some name, region := t.region, id := id }) :: labels s0.log := by
    rw [← hlab, ← show labels s1.log = labels s.log from st.labels]
    simp [putSymbol, labels, setNode]
  have hu' : ∀ nm m id', (setNode name { n with entry := .label id s.writeAddr, referenced := !fs.isEmpty } s1).symtab nm = some m → m.entry ≠ .forward id' [] := by
    intro nm m id' hm
    rw [hst] at hm
    split at hm
    · cases hm; simp
    · exact hu nm m id' hm
  have hnm' : ∀ nm m, (setNode name { n with entry := .label id s.writeAddr, referenced := !fs.isEmpty } s1).symtab nm = some m → nm ∈ s1.names := by
    intro nm m hm
    rw [show s1.names = s0.names from st.names.trans hnm]
    rw [hst] at hm
    split at hm
    · rename_i h; rw [h]; exact hnms name n hn
    · exact hnms nm m hm
  have hlam' : s1.lambdas = s0.lambdas := st.lambdas.trans hlam
  rcases hk with ⟨he, hid, hnum⟩ | ⟨he, hnum⟩
  · refine ⟨⟨F, N + 1, ⟨hF.1, ?_⟩, ?_, ?_⟩, hu', hnm'⟩
    · intro nm id'
      rw [hF.2]
      show _ ↔ ∃ m refs, (setNode name { n with entry := .label id s.writeAddr, referenced := !fs.isEmpty } s1).symtab nm = some m ∧ _
      simp only [hst]
      by_cases h : nm = name
      · subst h
        simp [hn, he]
      · simp only [if_neg h]
    · exact (st.numLabels.trans hnum).trans (next_number hN)
    · rw [hl, List.map_cons]
      show (id :: _ ++ (s1.lambdas.map _ ++ _)).Perm _
      rw [hlam']
      exact perm_label hp _ (hid.trans (next_number hN))
  · have hmem : (name, id) ∈ F := (hF.2 name id).2 ⟨n, fs, hn, he⟩
    obtain ⟨F1, F2, rfl⟩ := List.append_of_mem hmem
    have hnd := hF.1
    rw [List.map_append, List.map_cons, List.nodup_middle, List.nodup_cons, ← List.map_append] at hnd
    refine ⟨⟨F1 ++ F2, N, ⟨hnd.2, ?_⟩, ?_, ?_⟩, hu', hnm'⟩
    · intro nm id'
      have h1 := hF.2 nm id'
      show _ ↔ ∃ m refs, (setNode name { n with entry := .label id s.writeAddr, referenced := !fs.isEmpty } s1).symtab nm = some m ∧ _
      simp only [hst]
      by_cases h : nm = name
      · subst h
        constructor
        · intro h2
          exact absurd (List.mem_map.2 ⟨_, h2, rfl⟩) hnd.1
        · rintro ⟨m, refs, h2, h3⟩
          rw [if_pos rfl] at h2
          cases h2; cases h3
      · simp only [if_neg h]
        rw [← h1]
        simp [h]
    · exact (st.numLabels.trans hnum).trans hN
    · rw [hl, List.map_cons]
      show (id :: _ ++ (s1.lambdas.map _ ++ _)).Perm _
      rw [hlam']
      refine List.Perm.trans ?_ hp
      rw [List.map_append, List.map_append, List.map_cons, List.cons_append, ← List.append_assoc, ← List.append_assoc, ← List.append_assoc, ← List.append_assoc]
      exact List.perm_middle.symm

theorem processLambdaClose_ledger (t : Token) (s : Asm) (hs' : (processLambdaClose t s).2.success = true) (g : Ledger s) : Ledger (processLambdaClose t s).2 := by
  unfold processLambdaClose at *
  split
  · rename_i h; rw [h] at hs'; cases hs'
  · rename_i f fs hl
    rw [hl] at hs'
    dsimp only at *
    have hc := calculateAddr_still f.token f.kind f.addr s.writeAddr s
    generalize calculateAddr f.token f.kind f.addr s.writeAddr s = p at *
    obtain ⟨v, s1⟩ := p
    dsimp only at *
    obtain ⟨_, he⟩ := andThen_ok (P := True) (fun h => ⟨(emitAddr_step f.token f.kind f.size v none true { s1 with writeAddr := f.addr } (by simp) h).1, trivial⟩)
      (Ext.event _ rfl rfl rfl rfl) hs'
    rw [he]
    have st0 := emitAddr_still f.token f.kind f.size v none true { s1 with writeAddr := f.addr } (by simp)
    generalize emitAddr f.token f.kind f.size v none true { s1 with writeAddr := f.addr } = q at *
    obtain ⟨b, s2⟩ := q
    have st : Still s s2 := (hc.trans (b := s1) (c := { s1 with writeAddr := f.addr }) ⟨rfl, rfl, rfl, rfl, rfl⟩).trans st0
    obtain ⟨⟨F, N, hF, hN, hp⟩, hu, hnm⟩ := g
    refine ⟨⟨F, N, ⟨hF.1, ?_⟩, st.numLabels.trans hN, ?_⟩, ?_, ?_⟩
    · intro nm id
      rw [hF.2]
      show _ ↔ ∃ n refs, s2.symtab nm = some n ∧ _
      rw [st.symtab]
    · have hlab : labels (putSymbol s.writeAddr { type := .label, name := some (lambdaName f.lambdaId), generated := true, region := t.region, id := f.labelId } { s2 with writeAddr := s.writeAddr }).log =
          (s.writeAddr, { type := .label, name := some (lambdaName f.lambdaId), generated := true, region := t.region, id := f.labelId }) :: labels s.log := by
        rw [← st.labels]
        simp [putSymbol, labels]
      show ((labels (putSymbol _ _ _).log).map _ ++ (fs.map _ ++ _)).Perm _
      rw [hlab]
      rw [hl] at hp
      refine List.Perm.trans ?_ hp
      exact List.perm_middle.symm
    · intro nm m id hm
      rw [show s2.symtab = s.symtab from st.symtab] at hm
      exact hu nm m id hm
    · intro nm m hm
      rw [show s2.symtab = s.symtab from st.symtab] at hm
      show nm ∈ s2.names
      rw [show s2.names = s.names from st.names]
      exact hnm nm m hm

theorem ledger_atoms : Atoms KeepsLedger where
  trans h h' := ⟨h.1.trans h'.1, fun hs g => h'.2 hs (h.2 (h'.1.ok hs) g)⟩
  frame h := ⟨.same h.log h.success, fun _ g => g.still ⟨by rw [h.log], h.symtab, h.names, h.lambdas, h.numLabels⟩⟩
  error m r s := ⟨error_ext _ _ _, fun h => (by cases h)⟩
  event e s h := by
    refine ⟨event_ext e s h, fun _ g => ?_⟩
    suffices h' : labels (e :: s.log) = labels s.log from Ledger.still (s := s) ⟨h', rfl, rfl, rfl, rfl⟩ g
    cases e with
    | sym a i => simp [labels, h.1]
    | warning => rfl
    | fopen => rfl
    | fclose => rfl
    | rom => cases h
    | error => cases h
    | ref => cases h
  opcode t b r s := ⟨ext_atoms.opcode t b r s, fun _ g => g.still (Still.andThen (emit_still _ _ _ _) fun _ => putSymbol_still _ _ _ (by simp))⟩
  byte t b r s := ⟨ext_atoms.byte t b r s, fun _ g => g.still (Still.andThen (emit_still _ _ _ _) fun _ => putSymbol_still _ _ _ (by simp))⟩
  short t x r s := ⟨ext_atoms.short t x r s, fun _ g => g.still (Still.andThen (emit2_still _ _ _ _) fun _ => putSymbol2_still _ _ _ (by simp))⟩
  text t i c s h := ⟨ext_atoms.text t i c s h, fun _ g => g.still (Still.andThen (emit_still _ _ _ _) fun _ => putSymbol_still _ _ _ (by simp [h]))⟩
  findOrCreate t name s := by
    refine ⟨ext_atoms.findOrCreate _ _ _, fun hs' g => ?_⟩
    revert hs'
    unfold findOrCreate
    have fail : ∀ m : String, (error m t.region s).2.success = true → Ledger (error m t.region s).2 := fun m h => by cases h
    split
    · exact fail _
    · split
      · exact fail _
      · split
        · exact fail _
        · split
          · exact fail _
          · split
            · exact fun _ => g
            · rename_i hnone
              exact fun _ => g.setOther _ _ notForward_unknown (fun m hm => (by rw [hnone] at hm; cases hm)) _ ⟨List.mem_cons_self, fun x hx => List.mem_cons_of_mem _ hx⟩
  referenced name n s hn := ⟨setNode_ext _ _ _, fun _ g => g.setSame name _ n hn rfl⟩
  setMacro name n body id x s hn he := by
    refine ⟨setNode_ext _ _ _, fun _ g => ?_⟩
    refine g.setOther name _ (fun _ _ h => (by cases h)) ?_ s.names ⟨g.names name n hn, fun _ h => h⟩
    intro m hm a b h
    rw [hn] at hm; cases hm
    rw [h] at he
    rcases he with he | he <;> cases he
  forward t k z name n r s hn hf := ⟨ext_atoms.forward t k z name n r s hn hf, emitForwardRef_ledger t k z name n r s hn hf⟩
  lambda t k z r s := ⟨ext_atoms.lambda t k z r s, emitLambdaRef_ledger t k z r s⟩
  backward t k z name id addr r s n hn he := ⟨emitBackwardRef_ext _ _ _ _ _ _ _ _ _, fun _ g => g.still (emitBackwardRef_still _ _ _ _ _ _ _ _ _)⟩
  atRef t k z r s l ls hl := by
    refine ⟨ext_atoms.atRef t k z r s l ls hl, fun _ g => ?_⟩
    have h1 : Still s { s with atLabels := ls } := ⟨rfl, rfl, rfl, rfl, rfl⟩
    have h2 := emitBackwardRef_still t k z none l.labelId l.addr true r { s with atLabels := ls }
    exact g.still (h1.trans h2)
  atLabel t s := by
    refine ⟨ext_atoms.atLabel t s, fun _ g => ?_⟩
    obtain ⟨⟨F, N, hF, hN, hp⟩, hu, hnm⟩ := g
    exact ⟨⟨F, N + 1, hF, next_number hN, perm_label hp _ (next_number hN)⟩, hu, hnm⟩
  define t name n s hn := by
    refine ⟨ext_atoms.define t name n s hn, ?_⟩
    unfold defineLabel
    split
    · rename_i he
      exact fun _ g => placeLabel_ledger t name n _ [] _ s hn rfl rfl rfl rfl g (.inl ⟨he, rfl, rfl⟩)
    · rename_i id fs he
      exact fun _ g => placeLabel_ledger t name n id fs s s hn rfl rfl rfl rfl g (.inr ⟨he, rfl⟩)
    · intro h; cases h
    · intro h; cases h
  close t s := ⟨ext_atoms.close t s, processLambdaClose_ledger t s⟩

theorem initial_ledger : Ledger initial :=
  ⟨⟨[], 0, ⟨List.nodup_nil, fun name id => ⟨(fun h => by cases h), (fun ⟨n, fs, h, _⟩ => by cases h)⟩⟩, rfl, .refl _⟩, (fun name n id h => by cases h), (fun name n h => by cases h)⟩

theorem counted_nodup (n : Nat) (h : n ≤ 65535) : (counted n).Nodup := by
  unfold counted
  refine List.Nodup.map_on ?_ List.nodup_range
  intro a ha b hb hab
  rw [List.mem_range] at ha hb
  have := congrArg BitVec.toNat hab
  simp only [BitVec.toNat_ofNat] at this
  omega

/-- **C41.** The labels of an accepted program (named ones, lambdas and `@`-labels) are numbered from 1 on, in some order and
without a gap; the count is kept in 16 bits. -/
theorem C41_numbers (files : Files) (fuel : Nat) (filename : Str) (s : Asm) (h : assemble files fuel filename = some (true, s)) :
    ((labels s.log).map (·.2.id)).Perm ((List.range (labels s.log).length).map fun i => BitVec.ofNat 16 (i + 1)) := by
  obtain ⟨s0, ⟨⟨hx, hk⟩, _⟩, rfl, hok⟩ := assemble_end ledger_atoms.closed files fuel filename s h
  have q1 := reportLambdas_quiet s0.lambdas s0
  have q2 := reportAtLabels_quiet s0.atLabels (reportLambdas s0.lambdas s0)
  have q3 := reportSymbols_quiet s0.names.reverse (reportAtLabels s0.atLabels (reportLambdas s0.lambdas s0))
  have q := ((Closing.quiet q1).trans q2).trans q3
  have g0 := hk (q.ext.ok hok) initial_ledger
  have g1 := (ledger_atoms.closed.closing (reported fun m r s => ⟨warning_ext m r s, fun _ g => Ledger.still (s := s) ⟨rfl, rfl, rfl, rfl, rfl⟩ g⟩) q).1.2 hok g0
  have hlam : s0.lambdas = [] := by
    cases hl : s0.lambdas with
    | nil => rfl
    | cons f fs =>
      rw [hl] at q2 q3 hok
      have := q2.ext.ok (q3.ext.ok hok)
      rw [reportLambdas_fails] at this; cases this
  obtain ⟨⟨F, N, hF, hN, hp⟩, hu, hnm⟩ := g1
  have hF0 : F = [] := by
    cases hf : F with
    | nil => rfl
    | cons x xs =>
      exfalso
      obtain ⟨name, id⟩ := x
      obtain ⟨n, refs, h1, h2⟩ := (hF.2 name id).1 (by rw [hf]; simp)
      cases refs with
      | nil => exact hu name n id h1 h2
      | cons f fs =>
        rw [q.symtab] at h1
        have hm : name ∈ s0.names.reverse := List.mem_reverse.2 (g0.names name n h1)
        have := reportSymbols_fails _ (reportAtLabels s0.atLabels (reportLambdas s0.lambdas s0)) name hm n (by rw [q2.symtab, q1.symtab]; exact h1) id f (f :: fs) h2 (by simp)
        rw [this] at hok; cases hok
  subst hF0
  rw [show (reportSymbols s0.names.reverse (reportAtLabels s0.atLabels (reportLambdas s0.lambdas s0))).lambdas = [] from (reports_lambdas _ _ _ _).trans hlam] at hp
  simp only [List.map_nil, List.append_nil] at hp
  have hlen := hp.length_eq
  rw [List.length_map, counted, List.length_map, List.length_range] at hlen
  rw [hlen]
  exact hp

/-- **C41.** The labels of an accepted program with at most 65535 labels have different numbers. -/
theorem C41_numbers_differ (files : Files) (fuel : Nat) (filename : Str) (s : Asm) (h : assemble files fuel filename = some (true, s))
    (hn : (labels s.log).length ≤ 65535) : ((labels s.log).map (·.2.id)).Nodup :=
  (C41_numbers files fuel filename s h).nodup_iff.2 (counted_nodup _ hn)

/-- **C41.** So that the label a reference is about (C35) is the only one with its number: every reference in an accepted
program holds the address of its one label. -/
theorem C41_one_label (files : Files) (fuel : Nat) (filename : Str) (s : Asm) (h : assemble files fuel filename = some (true, s))
    (hd : (emitted s.log).Nodup) (hn : (labels s.log).length ≤ 65535) (r : Ref) (hr : r ∈ Spec.refs s.log) (l : Short) (i : SymInfo) (hl : (l, i) ∈ labels s.log)
    (hi : i.id = r.id) : InReach r.kind r.size r.addr l ∧ HoldsNumber (image s.log) r.addr r.size (refValue r.kind r.addr l) := by
  obtain ⟨l', i', h1, h2, h3⟩ := C35_references files fuel filename s h hd r hr
  have := List.inj_on_of_nodup_map (C41_numbers_differ files fuel filename s h hn) hl h1 (hi.trans h2.1.symm)
  cases this
  exact h3

/-! ## Examples -/

/-- The labels of a program: address, name, number. -/
def labelsOf (fs : List (String × String)) : Option (Bool × List (Short × Str × Short)) :=
  (assemble (filesOf fs) 100 (str "m")).map fun (b, s) => (b, (labels s.log).reverse.map fun (a, i) => (a, i.name.getD [], i.id))

/-- Two lambdas, one in the other, and a named label that is used first. -/
example : labelsOf [("m", "!x ?{ ?{ INC } } @x")] =
    some (true, [(0x10a, str "@01", 3), (0x10a, str "@00", 2), (0x10a, str "x", 1)]) := by decide +kernel

/-- **C41 is violated**: the name of an `@`-label is made from another number than the name of a lambda, so that two labels
of a program are announced under one name. -/
theorem C41_same_name_violated : labelsOf [("m", "@@ ,@ ?{ INC }")] = some (true, [(0x100, str "@01", 1), (0x106, str "@01", 2)]) := by decide +kernel

end Buxn.Asm
