import Verif.Asm.MeaningMemory
/-!
# C78: the state of the assembler and the specification
-/

namespace Buxn.Asm.Meaning
open Buxn.VM Buxn.Asm Buxn.Asm.Spec

/-! ## Bytes -/

theorem put_eq (bs : List Byte) (S : State) : S.put bs = { S with addr := S.addr + BitVec.ofNat 16 bs.length, bytes := laidOut S.addr bs ++ S.bytes, writes := laidOut S.addr bs ++ S.writes } := by
  induction bs generalizing S with
  | nil => simp [State.put, laidOut]
  | cons b bs ih =>
    rw [State.put, ih]
    simp only [laidOut, List.append_assoc, List.singleton_append, List.length_cons]
    rw [BitVec.add_assoc, show (1 : Short) + BitVec.ofNat 16 bs.length = BitVec.ofNat 16 (bs.length + 1) by
      apply BitVec.eq_of_toNat_eq; simp; omega]

theorem put_append (bs cs : List Byte) (S : State) : S.put (bs ++ cs) = (S.put bs).put cs := by
  induction bs generalizing S with
  | nil => rfl
  | cons b bs ih => exact ih _

theorem Memory.puts (bs : List Byte) (a : Short) {log log' : List Event} {bytes : List (Short × Byte)} {refs : List Reference} {labels : List (Str × Short)} {closed : List (Nat × Short)}
    (h : Memory log bytes refs labels closed) (hw : written log' = laidOut a bs ++ written log) (he : emitted log' = (laidOut a bs).map (·.1) ++ emitted log) :
    Memory log' (laidOut a bs ++ bytes) refs labels closed := by
  induction bs generalizing a log bytes with
  | nil => exact h.same hw he
  | cons b bs ih =>
    have h1 := h.put (log' := .rom a b false :: log) a b rfl rfl
    rw [laidOut, List.append_assoc] at hw ⊢
    rw [laidOut, List.map_append, List.append_assoc] at he
    exact ih (a + 1) h1 hw he

/-- Bytes are emitted one after the other. -/
def Puts (s s' : Asm) (bs : List Byte) : Prop :=
  Emits s s' (laidOut s.writeAddr bs) ((laidOut s.writeAddr bs).map (·.1)) (s.writeAddr + BitVec.ofNat 16 bs.length)

theorem Puts.trans {a b c : Asm} {bs cs : List Byte} (h : Puts a b bs) (h' : Puts b c cs) : Puts a c (bs ++ cs) := by
  unfold Puts at *
  rw [h.addr] at h'
  have := h.trans h'
  rw [laidOut_append, List.map_append, List.length_append]
  rw [BitVec.add_assoc, show BitVec.ofNat 16 bs.length + BitVec.ofNat 16 cs.length = BitVec.ofNat 16 (bs.length + cs.length) by
      apply BitVec.eq_of_toNat_eq; simp] at this
  exact this

theorem emitOpcode_puts (t : Token) (op : Byte) (r : Bool) (s : Asm) (h : (emitOpcode t op r s).2.success = true) :
    (emitOpcode t op r s).1 = true ∧ Puts s (emitOpcode t op r s).2 [op] := emitOpcode_emits t op r s h

theorem emitByte_puts (t : Token) (b : Byte) (r : Bool) (s : Asm) (h : (emitByte t b r s).2.success = true) :
    (emitByte t b r s).1 = true ∧ Puts s (emitByte t b r s).2 [b] := emitByte_emits t b r s h

theorem emitShort_puts (t : Token) (x : Short) (r : Bool) (s : Asm) (h : (emitShort t x r s).2.success = true) :
    (emitShort t x r s).1 = true ∧ Puts s (emitShort t x r s).2 [hi8 x, lo8 x] := emitShort_emits t x r s h

theorem textLoop_ext (t : Token) (i : SymInfo) (cs : Str) (a : Short) (s : Asm) : Ext s (textLoop t i cs a s).2 := by
  induction cs generalizing a s with
  | nil => exact .refl s
  | cons c cs ih => exact andThen_ext (emit_ext _ _ _ _) fun _ => (putSymbol_ext _ _ _).trans (ih _ _)

theorem textLoop_puts (t : Token) (i : SymInfo) (cs : Str) (a : Short) (s : Asm) (h : (textLoop t i cs a s).2.success = true) :
    (textLoop t i cs a s).1 = true ∧ Puts s (textLoop t i cs a s).2 cs := by
  induction cs generalizing a s with
  | nil =>
    refine ⟨rfl, ?_⟩
    have : Puts s s [] := by
      have := Emits.refl s
      unfold Puts
      rw [show s.writeAddr + BitVec.ofNat 16 ([] : List Byte).length = s.writeAddr from BitVec.add_zero _]
      exact this
    exact this
  | cons c cs ih =>
    rw [textLoop] at h ⊢
    obtain ⟨h1, he⟩ := andThen_ok (emit_emits t c false s) ((putSymbol_ext _ _ _).trans (textLoop_ext _ _ _ _ _)) h
    rw [he] at h ⊢
    obtain ⟨i1, i2⟩ := ih _ _ h
    refine ⟨i1, Puts.trans (bs := [c]) ?_ i2⟩
    exact h1.after (putSymbol_emits _ _ _)

/-! ## Tables -/

/-- A pending reference. -/
def refOf (f : FRef) (t : Target) : Reference := ⟨f.addr, f.kind, f.size, t⟩

/-- The address of an entry. -/
def labelOf : Entry → Option Short
  | .label _ a => some a
  | _ => none

/-- The body of an entry. -/
def bodyOf : Entry → Option (List Str)
  | .macro ts _ _ => some (ts.map (·.lex))
  | _ => none

/-- The symbol counts as used, or will when it is defined. -/
def Mentioned (n : Node) : Prop := n.referenced = true ∨ ∃ id fs, n.entry = .forward id fs

/-- Only what is waited for is pending, and a symbol that is not known is not used. -/
def WellMarked (n : Node) : Prop := (∀ id fs, n.entry = .forward id fs → fs ≠ []) ∧ (n.entry = .unknown → n.referenced = false)

/-- The symbol table knows the labels, the macros, the references that wait, and which symbols are used. -/
structure Tables (tab : Str → Option Node) (ns : List Str) (refs : List Reference) (ls : List (Str × Short)) (ms : List (Str × List Str)) (us : List Str) : Prop where
  names : ∀ name n, tab name = some n → name ∈ ns
  brace : tab (str "{") = none
  labels : ∀ name, ls.lookup name = (tab name).bind fun n => labelOf n.entry
  macros : ∀ name, ms.lookup name = (tab name).bind fun n => bodyOf n.entry
  bodies : ∀ name n ts id e, tab name = some n → n.entry = .macro ts id e → ∀ t ∈ ts, t.lex ≠ []
  fwd : ∀ name n id fs, tab name = some n → n.entry = .forward id fs → ∀ f ∈ fs, refOf f (.name name) ∈ refs
  wait : ∀ r ∈ refs, ∀ name, r.target = .name name → ls.lookup name = none →
    ∃ n id fs, tab name = some n ∧ n.entry = .forward id fs ∧ ∃ f ∈ fs, r = refOf f (.name name)
  used : ∀ name, name ∈ us ↔ ∃ n, tab name = some n ∧ Mentioned n
  marked : ∀ name n, tab name = some n → WellMarked n

section
variable {tab tab' : Str → Option Node} {names names' : List Str} {refs refs' : List Reference} {labels labels' : List (Str × Short)} {macros macros' : List (Str × List Str)} {used used' : List Str}

/-- One entry changes. -/
theorem Tables.set (T : Tables tab names refs labels macros used) (name : Str) (n : Node) (hnb : name ≠ str "{") (hn : tab' name = some n) (ho : ∀ k, k ≠ name → tab' k = tab k)
    (hnm : name ∈ names') (hns : ∀ k ∈ names, k ∈ names')
    (hl : labels'.lookup name = labelOf n.entry) (hlo : ∀ k, k ≠ name → labels'.lookup k = labels.lookup k)
    (hm : macros'.lookup name = bodyOf n.entry) (hmo : ∀ k, k ≠ name → macros'.lookup k = macros.lookup k)
    (hb : ∀ ts id e, n.entry = .macro ts id e → ∀ t ∈ ts, t.lex ≠ [])
    (hr : ∀ r ∈ refs, r ∈ refs') (hf : ∀ id fs, n.entry = .forward id fs → ∀ f ∈ fs, refOf f (.name name) ∈ refs')
    (hw : ∀ r ∈ refs', r.target = .name name → labels'.lookup name = none → ∃ id fs, n.entry = .forward id fs ∧ ∃ f ∈ fs, r = refOf f (.name name))
    (hq : ∀ r ∈ refs', ∀ k, k ≠ name → r.target = .name k → r ∈ refs ∨ labels.lookup k ≠ none)
    (hu : name ∈ used' ↔ Mentioned n) (huo : ∀ k, k ≠ name → (k ∈ used' ↔ k ∈ used)) (hwm : WellMarked n) : Tables tab' names' refs' labels' macros' used' where
  names k m h := by
    by_cases hk : k = name
    · subst hk; exact hnm
    · rw [ho k hk] at h; exact hns k (T.names k m h)
  brace := by rw [ho _ (Ne.symm hnb)]; exact T.brace
  labels k := by
    by_cases hk : k = name
    · subst hk; rw [hn, hl]; rfl
    · rw [ho k hk, hlo k hk]; exact T.labels k
  macros k := by
    by_cases hk : k = name
    · subst hk; rw [hn, hm]; rfl
    · rw [ho k hk, hmo k hk]; exact T.macros k
  bodies k m ts id e h he := by
    by_cases hk : k = name
    · subst hk; rw [hn] at h; cases h; exact hb ts id e he
    · rw [ho k hk] at h; exact T.bodies k m ts id e h he
  fwd k m id fs h he f hf' := by
    by_cases hk : k = name
    · subst hk; rw [hn] at h; cases h; exact hf id fs he f hf'
    · rw [ho k hk] at h; exact hr _ (T.fwd k m id fs h he f hf')
  wait r hr k ht hk' := by
    by_cases hk : k = name
    · subst hk
      obtain ⟨id, fs, h1, h2⟩ := hw r hr ht hk'
      exact ⟨n, id, fs, hn, h1, h2⟩
    · rw [hlo k hk] at hk'
      rcases hq r hr k hk ht with h | h
      · rw [ho k hk]; exact T.wait r h k ht hk'
      · exact absurd hk' h
  used k := by
    by_cases hk : k = name
    · subst hk; rw [hu]
      exact ⟨fun h => ⟨n, hn, h⟩, fun ⟨m, h1, h2⟩ => by rw [hn] at h1; cases h1; exact h2⟩
    · rw [huo k hk, T.used k, ho k hk]
  marked k m h := by
    by_cases hk : k = name
    · subst hk; rw [hn] at h; cases h; exact hwm
    · rw [ho k hk] at h; exact T.marked k m h

/-- The entry is kept, and the symbol is used. -/
theorem Tables.mark (T : Tables tab names refs labels macros used) (name : Str) (n m : Node) (hm : tab name = some m) (he : n.entry = m.entry) (hu : n.entry ≠ .unknown) (hr : n.referenced = true)
    (hn : tab' name = some n) (ho : ∀ k, k ≠ name → tab' k = tab k) : Tables tab' names refs labels macros (name :: used) :=
  T.set name n (fun e => by rw [e, T.brace] at hm; cases hm) hn ho (T.names _ _ hm) (fun _ h => h) (by rw [T.labels, hm, he]; rfl) (fun _ _ => rfl) (by rw [T.macros, hm, he]; rfl) (fun _ _ => rfl)
    (fun ts id e h => T.bodies name m ts id e hm (by rw [← he, h])) (fun _ h => h) (fun id fs h => T.fwd name m id fs hm (by rw [← he, h]))
    (fun r hr ht hl => by
      obtain ⟨n', id, fs, h1, h2, h3⟩ := T.wait r hr name ht hl
      rw [hm] at h1; cases h1
      exact ⟨id, fs, by rw [he, h2], h3⟩)
    (fun r hr _ _ _ => .inl hr) ⟨fun _ => .inl hr, fun _ => List.mem_cons_self⟩ (fun k hk => by simp [hk])
    ⟨fun id fs h => (T.marked name m hm).1 id fs (by rw [← he, h]), fun h => absurd h hu⟩

/-- A new symbol. -/
theorem Tables.create (T : Tables tab names refs labels macros used) (name : Str) (n : Node) (hnb : name ≠ str "{") (he : n.entry = .unknown) (hnr : n.referenced = false) (hold : tab name = none)
    (hn : tab' name = some n) (ho : ∀ k, k ≠ name → tab' k = tab k) : Tables tab' (name :: names) refs labels macros used :=
  T.set name n hnb hn ho List.mem_cons_self (fun _ h => List.mem_cons_of_mem _ h) (by rw [T.labels, hold, he]; rfl) (fun _ _ => rfl) (by rw [T.macros, hold, he]; rfl) (fun _ _ => rfl)
    (fun ts id e h => by rw [he] at h; cases h) (fun _ h => h) (fun id fs h => by rw [he] at h; cases h)
    (fun r hr ht hl => by
      obtain ⟨n', id, fs, h1, h2, h3⟩ := T.wait r hr name ht hl
      rw [hold] at h1; cases h1)
    (fun r hr _ _ _ => .inl hr)
    ⟨(fun h => by obtain ⟨m, h1, -⟩ := (T.used name).1 h; rw [hold] at h1; cases h1),
      (fun h => by
        rcases h with h | ⟨_, _, h⟩
        · rw [hnr] at h; cases h
        · rw [he] at h; cases h)⟩ (fun _ _ => Iff.rfl)
    ⟨(fun _ _ h => by rw [he] at h; cases h), fun _ => hnr⟩

/-- References to other things than labels that are not yet known. -/
theorem Tables.refer (T : Tables tab names refs labels macros used) (r : Reference) (hr : ∀ k, r.target = .name k → labels.lookup k ≠ none) : Tables tab names (r :: refs) labels macros used where
  names := T.names
  brace := T.brace
  labels := T.labels
  macros := T.macros
  bodies := T.bodies
  fwd k m id fs h he f hf := List.mem_cons_of_mem _ (T.fwd k m id fs h he f hf)
  wait q hq k ht hl := by
    rcases List.mem_cons.1 hq with rfl | hq
    · exact absurd hl (hr k ht)
    · exact T.wait q hq k ht hl
  used := T.used
  marked := T.marked

end

/-! ## Lambdas -/

structure Lams (lams : List FRef) (refs : List Reference) (op : List Nat) (count : Nat) (closed : List (Nat × Short)) : Prop where
  opened : List.Forall₂ (fun f k => refOf f (.lambda k) ∈ refs ∧ ∀ r ∈ refs, r.target = .lambda k → r = refOf f (.lambda k)) lams op
  nodup : op.Nodup
  fresh : ∀ k ∈ op, k < count ∧ closed.lookup k = none
  below : ∀ k a, closed.lookup k = some a → k < count
  all : ∀ r ∈ refs, ∀ k, r.target = .lambda k → k < count ∧ (k ∈ op ∨ closed.lookup k ≠ none)
  single : List.Forall₂ (fun f k => refs.filter (fun r => r.target = .lambda k) = [refOf f (.lambda k)]) lams op

section
variable {lams : List FRef} {refs : List Reference} {opened : List Nat} {count : Nat} {closed : List (Nat × Short)}

theorem Lams.refer (L : Lams lams refs opened count closed) (r : Reference) (hr : ∀ k, r.target ≠ .lambda k) : Lams lams (r :: refs) opened count closed where
  opened := L.opened.imp fun f k h => ⟨List.mem_cons_of_mem _ h.1, fun q hq ht => by
    rcases List.mem_cons.1 hq with rfl | hq
    · exact absurd ht (hr k)
    · exact h.2 q hq ht⟩
  nodup := L.nodup
  fresh := L.fresh
  below := L.below
  all q hq k ht := by
    rcases List.mem_cons.1 hq with rfl | hq
    · exact absurd ht (hr k)
    · exact L.all q hq k ht
  single := L.single.imp fun f k h => by rw [List.filter_cons_of_neg (by simpa using hr k)]; exact h

theorem Lams.open (L : Lams lams refs opened count closed) (f : FRef) : Lams (f :: lams) (refOf f (.lambda count) :: refs) (count :: opened) (count + 1) closed where
  opened := by
    refine .cons ⟨List.mem_cons_self, fun q hq ht => ?_⟩ ?_
    · rcases List.mem_cons.1 hq with rfl | hq
      · rfl
      · exact absurd (L.all q hq count ht).1 (Nat.lt_irrefl _)
    · have h := L.opened
      have hk : ∀ k ∈ opened, k ≠ count := fun k hk e => by have := (L.fresh k hk).1; omega
      clear L
      induction h with
      | nil => exact .nil
      | cons h _ ih =>
        refine .cons ⟨List.mem_cons_of_mem _ h.1, fun q hq ht => ?_⟩ (ih fun k hk' => hk k (List.mem_cons_of_mem _ hk'))
        rcases List.mem_cons.1 hq with rfl | hq
        · rw [refOf] at ht
          exact absurd (Target.lambda.inj ht).symm (hk _ List.mem_cons_self)
        · exact h.2 q hq ht
  nodup := List.nodup_cons.2 ⟨fun h => by have := (L.fresh _ h).1; omega, L.nodup⟩
  fresh k hk := by
    rcases List.mem_cons.1 hk with rfl | hk
    · refine ⟨by omega, ?_⟩
      cases h : closed.lookup k with
      | none => rfl
      | some a => have := L.below k a h; omega
    · obtain ⟨h1, h2⟩ := L.fresh k hk
      exact ⟨by omega, h2⟩
  below k a h := by have := L.below k a h; omega
  all q hq k ht := by
    rcases List.mem_cons.1 hq with rfl | hq
    · cases ht
      exact ⟨by omega, .inl List.mem_cons_self⟩
    · obtain ⟨h1, h2⟩ := L.all q hq k ht
      exact ⟨by omega, h2.imp (List.mem_cons_of_mem _) id⟩
  single := by
    refine .cons ?_ ?_
    · rw [List.filter_cons_of_pos (by simp [refOf])]
      congr 1
      rw [List.filter_eq_nil_iff]
      intro q hq ht
      exact absurd (L.all q hq count (by simpa using ht)).1 (Nat.lt_irrefl _)
    · have h := L.single
      have hk : ∀ k ∈ opened, k ≠ count := fun k hk e => by have := (L.fresh k hk).1; omega
      clear L
      induction h with
      | nil => exact .nil
      | cons h _ ih =>
        refine .cons ?_ (ih fun k hk' => hk k (List.mem_cons_of_mem _ hk'))
        rw [List.filter_cons_of_neg (by simpa [refOf] using Ne.symm (hk _ List.mem_cons_self))]
        exact h

theorem lookup_cons {α β : Type} [BEq α] [LawfulBEq α] [DecidableEq α] (k a : α) (b : β) (l : List (α × β)) : ((a, b) :: l).lookup k = if k = a then some b else l.lookup k := by
  rw [List.lookup_cons]
  by_cases h : k = a
  · subst h; simp
  · rw [if_neg h, show (k == a) = false by simpa using h]

theorem Lams.close {f : FRef} {k : Nat} (L : Lams (f :: lams) refs (k :: opened) count closed) (a : Short) : Lams lams refs opened count ((k, a) :: closed) where
  opened := by cases L.opened; assumption
  nodup := (List.nodup_cons.1 L.nodup).2
  fresh j hj := by
    obtain ⟨h1, h2⟩ := L.fresh j (List.mem_cons_of_mem _ hj)
    refine ⟨h1, ?_⟩
    rw [lookup_cons, if_neg]
    · exact h2
    · rintro rfl; exact (List.nodup_cons.1 L.nodup).1 hj
  below j b h := by
    rw [lookup_cons] at h
    split at h
    · rename_i e; subst e; exact (L.fresh _ List.mem_cons_self).1
    · exact L.below j b h
  all q hq j ht := by
    obtain ⟨h1, h2⟩ := L.all q hq j ht
    refine ⟨h1, ?_⟩
    rw [lookup_cons]
    by_cases e : j = k
    · right; rw [if_pos e]; simp
    · rw [if_neg e]
      exact h2.imp (fun h => (List.mem_cons.1 h).resolve_left e) id
  single := by cases L.single; assumption

theorem Lams.only {f : FRef} {k : Nat} (L : Lams (f :: lams) refs (k :: opened) count closed) : refs.filter (fun r => r.target = .lambda k) = [refOf f (.lambda k)] := by
  cases L.single; assumption

end

/-! ## What has been written -/

theorem spelled_eq (a : Short) (v : Int) (z : RefSize) : spelled a v z = numberAt a z (BitVec.ofInt 16 v) := by
  cases z with
  | byte =>
    unfold spelled numberAt lo8
    rw [show (BitVec.ofInt 16 v).setWidth 8 = BitVec.ofInt 8 v by
      apply BitVec.eq_of_toNat_eq
      simp only [BitVec.toNat_setWidth, BitVec.toNat_ofInt]
      omega]
  | short =>
    unfold spelled numberAt lo8 hi8
    rw [show (BitVec.ofInt 16 v).setWidth 8 = BitVec.ofInt 8 v by
      apply BitVec.eq_of_toNat_eq
      simp only [BitVec.toNat_setWidth, BitVec.toNat_ofInt]
      omega, show ((BitVec.ofInt 16 v) >>> 8).setWidth 8 = BitVec.ofInt 8 (v / 256) by
      apply BitVec.eq_of_toNat_eq
      simp only [BitVec.toNat_setWidth, BitVec.toNat_ushiftRight, BitVec.toNat_ofInt, Nat.shiftRight_eq_div_pow]
      omega]

/-- The log has what the specification has written, and the references of a label that is not placed yet are known in their order. -/
structure History (log : List Event) (tab : Str → Option Node) (refs : List Reference) (writes : List (Short × Byte)) : Prop where
  writes : written log = writes
  order : ∀ name n id fs, tab name = some n → n.entry = .forward id fs → refs.filter (fun r => r.target = .name name) = fs.map fun f => refOf f (.name name)

section
variable {log log' : List Event} {tab tab' : Str → Option Node} {refs : List Reference} {ws : List (Short × Byte)}

/-- No new entry of a label that is not placed yet. -/
theorem History.next (h : History log tab refs ws) (n : List (Short × Byte)) (hw : written log' = n ++ written log)
    (ht : ∀ name n id fs, tab' name = some n → n.entry = .forward id fs → ∃ n', tab name = some n' ∧ n'.entry = .forward id fs) : History log' tab' refs (n ++ ws) where
  writes := by rw [hw, h.writes]
  order name n id fs hn he := by
    obtain ⟨n', h1, h2⟩ := ht name n id fs hn he
    exact h.order name n' id fs h1 h2

theorem History.retab (h : History log tab refs ws) (ht : ∀ name n id fs, tab' name = some n → n.entry = .forward id fs → ∃ n', tab name = some n' ∧ n'.entry = .forward id fs) :
    History log tab' refs ws := h.next (log' := log) [] rfl ht

/-- A reference to something that is placed. -/
theorem History.refer (h : History log tab refs ws) (r : Reference) (n : List (Short × Byte)) (hw : written log' = n ++ written log)
    (hr : ∀ k m id fs, r.target = .name k → tab k = some m → m.entry ≠ .forward id fs) : History log' tab (r :: refs) (n ++ ws) where
  writes := by rw [hw, h.writes]
  order name m id fs hn he := by
    rw [List.filter_cons_of_neg (by simpa using fun e => hr name m id fs e hn he)]
    exact h.order name m id fs hn he

/-- One entry changes, and is not about a label that is not placed yet. -/
theorem History.set (h : History log tab refs ws) (name : Str) (n : Node) (hn : tab' name = some n) (ho : ∀ k, k ≠ name → tab' k = tab k) (he : ∀ id fs, n.entry ≠ .forward id fs) : History log tab' refs ws :=
  h.retab fun k m id fs hk hm => by
    by_cases e : k = name
    · subst e; rw [hn] at hk; cases hk; exact absurd hm (he id fs)
    · exact ⟨m, by rw [← ho k e]; exact hk, hm⟩

/-- The same if the entry stays as it was. -/
theorem History.keep (h : History log tab refs ws) (name : Str) (n m : Node) (hm : tab name = some m) (he : n.entry = m.entry) (hn : tab' name = some n) (ho : ∀ k, k ≠ name → tab' k = tab k) : History log tab' refs ws :=
  h.retab fun k x id fs hk hx => by
    by_cases e : k = name
    · subst e; rw [hn] at hk; cases hk; exact ⟨m, hm, by rw [← he]; exact hx⟩
    · exact ⟨x, by rw [← ho k e]; exact hk, hx⟩

end

/-! ## States -/

/-- The assembler is where the specification is. `i` deferred files have been done. -/
structure Sim (i : Nat) (s : Asm) (S : State) : Prop where
  readBuf : s.readBuf = none
  addr : S.addr = s.writeAddr
  scope : S.scope = s.scope
  anonymous : S.anonymous = s.atLabels.map (·.addr)
  included : S.included = s.includes
  deferred : S.deferred = (s.deferred.drop i).map (·.1)
  index : i ≤ s.deferred.length
  tables : Tables s.symtab s.names S.refs S.labels S.macros S.used
  lams : Lams s.lambdas S.refs S.opened S.count S.closed
  memory : Memory s.log S.bytes S.refs S.labels S.closed
  history : History s.log s.symtab S.refs S.writes

theorem Sim.same {i : Nat} {s s' : Asm} {S : State} (h : Sim i s S) (e : Emits s s' [] [] s.writeAddr) : Sim i s' S where
  readBuf := e.same.readBuf.trans h.readBuf
  addr := h.addr.trans e.addr.symm
  scope := h.scope.trans e.same.scope.symm
  anonymous := by rw [e.same.atLabels]; exact h.anonymous
  included := h.included.trans e.same.includes.symm
  deferred := by rw [e.same.deferred]; exact h.deferred
  index := by rw [e.same.deferred]; exact h.index
  tables := by rw [e.same.symtab, e.same.names]; exact h.tables
  lams := by rw [e.same.lambdas]; exact h.lams
  memory := h.memory.same e.written e.emitted
  history := by rw [e.same.symtab]; exact h.history.next [] e.written fun _ n _ _ h1 h2 => ⟨n, h1, h2⟩

theorem Sim.puts {i : Nat} {s s' : Asm} {S : State} {bs : List Byte} (h : Sim i s S) (e : Puts s s' bs) : Sim i s' (S.put bs) := by
  rw [put_eq]
  have ha := e.addr
  have hw := e.written
  have he := e.emitted
  rw [← h.addr] at ha hw he
  exact {
    readBuf := e.same.readBuf.trans h.readBuf
    addr := ha.symm
    scope := h.scope.trans e.same.scope.symm
    anonymous := by rw [e.same.atLabels]; exact h.anonymous
    included := h.included.trans e.same.includes.symm
    deferred := by rw [e.same.deferred]; exact h.deferred
    index := by rw [e.same.deferred]; exact h.index
    tables := by rw [e.same.symtab, e.same.names]; exact h.tables
    lams := by rw [e.same.lambdas]; exact h.lams
    memory := h.memory.puts bs _ hw he
    history := by rw [e.same.symtab]; exact h.history.next _ hw fun _ n _ _ h1 h2 => ⟨n, h1, h2⟩ }

/-! ## Symbols -/

/-- A symbol is found, or made. -/
theorem findOrCreate_sim {i : Nat} {s s' : Asm} {S : State} {t : Token} {name : Str} {n : Node} (h : Sim i s S) (hf : findOrCreate t name s = (some n, s')) :
    Sim i s' S ∧ s'.symtab name = some n ∧ s'.writeAddr = s.writeAddr ∧ (∀ c, name.head? = some c → isRunic c = false) ∧ parseOpcode name = none ∧ isNumber name = false ∧ name ≠ [] := by
  unfold findOrCreate at hf
  split at hf
  · cases hf
  · rename_i c rest
    split at hf
    · cases hf
    · rename_i h1
      split at hf
      · cases hf
      · rename_i h2
        split at hf
        · cases hf
        · rename_i h3
          have hp : (∀ d, (c :: rest).head? = some d → isRunic d = false) ∧ parseOpcode (c :: rest) = none ∧ isNumber (c :: rest) = false ∧ c :: rest ≠ [] := by
            refine ⟨fun d hd => ?_, by simpa using h2, by simpa using h3, by simp⟩
            have : c = d := by simpa using hd
            subst this; simpa using h1
          split at hf
          · rename_i m hm
            cases hf
            exact ⟨h, hm, rfl, hp⟩
          · rename_i hm
            cases hf
            refine ⟨⟨h.readBuf, h.addr, h.scope, h.anonymous, h.included, h.deferred, h.index, ?_, h.lams, h.memory, h.history.set (c :: rest) ⟨t, false, .unknown⟩ (by simp [setNode]) (fun k hk => by simp [setNode, hk]) (fun _ _ h => by cases h)⟩, by simp [setNode], rfl, hp⟩
            exact h.tables.create (c :: rest) ⟨t, false, .unknown⟩ (fun e => h1 (by rw [show c = ch '{' from (List.cons.inj e).1]; rfl)) rfl rfl hm (by simp [setNode]) (fun k hk => by simp [setNode, hk])

theorem Sim.mark {i : Nat} {s : Asm} {S : State} (h : Sim i s S) (name : Str) (n m : Node) (hm : s.symtab name = some m) (he : n.entry = m.entry) (hu : n.entry ≠ .unknown)
    (hr : n.referenced = true) : Sim i (setNode name n s) { S with used := name :: S.used } :=
  ⟨h.readBuf, h.addr, h.scope, h.anonymous, h.included, h.deferred, h.index,
    h.tables.mark name n m hm he hu hr (by simp [setNode]) (fun k hk => by simp [setNode, hk]), h.lams, h.memory,
    h.history.keep name n m hm he (by simp [setNode]) (fun k hk => by simp [setNode, hk])⟩

/-! ## References -/

/-- A reference whose target is known is put. -/
theorem Sim.refer {i : Nat} {s s' : Asm} {S : State} (h : Sim i s S) (k : RefKind) (z : RefSize) (t : Target) (l : Short) (hl : findIn S.labels S.closed t = some l) (ht : ∀ j, t ≠ .lambda j)
    (hr : InReach k z s.writeAddr l) (e : Emits s s' (numberAt s.writeAddr z (BitVec.ofInt 16 (refValue k s.writeAddr l))) (cells s.writeAddr z) (s.writeAddr + width z)) :
    Sim i s' (S.refer k z t) := by
  have ha := e.addr
  have hw := e.written
  have he := e.emitted
  rw [← h.addr] at ha hw he hr
  exact {
    readBuf := e.same.readBuf.trans h.readBuf
    addr := ha.symm
    scope := h.scope.trans e.same.scope.symm
    anonymous := by rw [e.same.atLabels]; exact h.anonymous
    included := h.included.trans e.same.includes.symm
    deferred := by rw [e.same.deferred]; exact h.deferred
    index := by rw [e.same.deferred]; exact h.index
    tables := by
      rw [e.same.symtab, e.same.names]
      refine h.tables.refer _ fun n hn hx => ?_
      dsimp only at hn
      rw [hn, findIn, hx] at hl; cases hl
    lams := by rw [e.same.lambdas]; exact h.lams.refer _ ht
    memory := h.memory.refer ⟨S.addr, k, z, t⟩ _ hw he fun l' hl' => by
      dsimp only at hl'
      rw [hl] at hl'; cases hl'
      exact ⟨hr, rfl⟩
    history := by
      rw [e.same.symtab]
      have hf : S.find t = some l := hl
      show History _ _ _ (Reference.spell _ (S.find t) ++ S.writes)
      rw [hf]
      show History _ _ _ (spelled S.addr (refValue k S.addr l) z ++ S.writes)
      rw [spelled_eq]
      refine h.history.refer _ _ hw fun j m id fs ht hj he => ?_
      dsimp only at ht
      rw [ht, findIn, h.tables.labels, hj, Option.bind_some, he] at hl
      cases hl }

theorem forward_parts (e : Entry) (fresh : Short) (he : e = .unknown ∨ ∃ id fs, e = .forward id fs) : labelOf e = none ∧ bodyOf e = none ∧
    (∀ id fs, e = .forward id fs → (forwardOf e fresh).2 = fs) ∧ (e = .unknown → (forwardOf e fresh).2 = []) := by
  rcases he with rfl | ⟨id, fs, rfl⟩
  · exact ⟨rfl, rfl, (fun _ _ h => by cases h), fun _ => rfl⟩
  · exact ⟨rfl, rfl, (fun _ _ h => by cases h; rfl), fun h => by cases h⟩

theorem emitForwardRef_sim {i : Nat} {s : Asm} {S : State} (h : Sim i s S) (t : Token) (k : RefKind) (z : RefSize) (name : Str) (n : Node) (r : Bool) (hn : s.symtab name = some n)
    (he : n.entry = .unknown ∨ ∃ id fs, n.entry = .forward id fs) (hs : (emitForwardRef t k z name n r s).2.success = true) :
    Sim i (emitForwardRef t k z name n r s).2 (State.refer k z (.name name) { S with used := name :: S.used }) := by
  obtain ⟨p1, p2, p3, p4⟩ := forward_parts n.entry (s.numLabels + 1) he
  unfold emitForwardRef addForwardRef at *
  dsimp only at *
  generalize forwardOf n.entry (s.numLabels + 1) = fo at *
  obtain ⟨id, fs⟩ := fo
  dsimp only at *
  have h0 : Emits s (numberLabel n.entry s) [] [] s.writeAddr := by
    unfold numberLabel
    split
    exacts [⟨⟨rfl, rfl, rfl, rfl, rfl, rfl, rfl, rfl⟩, rfl, rfl, rfl⟩, .refl s]
  generalize numberLabel n.entry s = s1 at *
  obtain ⟨e, hx⟩ := andThen_ok (emitPlaceholder_emits t k z (some name) id r (setNode name { n with entry := .forward id fs } s1)) (setNode_ext _ _ _) hs
  rw [hx]
  generalize (emitPlaceholder t k z (some name) id r (setNode name { n with entry := .forward id fs } s1)).2 = s2 at *
  have h1 := h.same h0
  have hn1 : s1.symtab name = some n := by rw [h0.same.symtab]; exact hn
  have ha := e.addr
  have hw := e.written
  have hem := e.emitted
  have hwa : (setNode name { n with entry := .forward id fs } s1).writeAddr = S.addr := h1.addr.symm
  rw [hwa] at ha hw hem
  have hl0 : S.labels.lookup name = none := by rw [h1.tables.labels, hn1]; exact p1
  have hsym : ∀ x, x ≠ name → s2.symtab x = s1.symtab x := fun x hx' => by rw [e.same.symtab]; simp [setNode, hx']
  exact {
    readBuf := e.same.readBuf.trans h1.readBuf
    addr := ha.symm
    scope := h1.scope.trans e.same.scope.symm
    anonymous := by show _ = s2.atLabels.map _; rw [e.same.atLabels]; exact h1.anonymous
    included := h1.included.trans e.same.includes.symm
    deferred := by show _ = (s2.deferred.drop i).map _; rw [e.same.deferred]; exact h1.deferred
    index := by show _ ≤ s2.deferred.length; rw [e.same.deferred]; exact h1.index
    tables := by
      refine h1.tables.set (names' := s2.names) name { n with entry := .forward id ({ token := t, addr := s1.writeAddr, kind := k, size := z } :: fs) } (fun e => by rw [e, h1.tables.brace] at hn1; cases hn1) (by simp [setNode]) ?_ ?_ ?_ ?_ (fun _ _ => rfl) ?_ (fun _ _ => rfl)
        (fun _ _ _ h => by cases h) (fun _ h => List.mem_cons_of_mem _ h) ?_ ?_ ?_ ?_ ?_ ?_
      · intro x hx'
        show (if x = name then _ else s2.symtab x) = _
        rw [if_neg hx']; exact hsym x hx'
      · rw [e.same.names]; exact h1.tables.names _ _ hn1
      · rw [e.same.names]; exact fun _ h => h
      · exact hl0
      · show S.macros.lookup name = none
        rw [h1.tables.macros, hn1]; exact p2
      · intro id' fs' hh f hf
        simp only [Entry.forward.injEq] at hh
        obtain ⟨-, rfl⟩ := hh
        rcases List.mem_cons.1 hf with rfl | hf
        · rw [refOf, ← h1.addr]; exact List.mem_cons_self
        · rcases he with he | ⟨id'', fs'', he⟩
          · rw [p4 he] at hf; cases hf
          · rw [p3 _ _ he] at hf
            exact List.mem_cons_of_mem _ (h1.tables.fwd name n id'' fs'' hn1 he f hf)
      · intro q hq ht _
        refine ⟨_, _, rfl, ?_⟩
        rcases List.mem_cons.1 hq with rfl | hq
        · exact ⟨_, List.mem_cons_self, by rw [refOf, ← h1.addr]⟩
        · obtain ⟨n', id', fs', a1, a2, f, a3, a4⟩ := h1.tables.wait q hq name ht hl0
          rw [hn1] at a1; cases a1
          rw [p3 _ _ a2]
          exact ⟨f, List.mem_cons_of_mem _ a3, a4⟩
      · intro q hq x hx' ht
        rcases List.mem_cons.1 hq with rfl | hq
        · exact absurd (Target.name.inj ht).symm hx'
        · exact .inl hq
      · exact ⟨fun _ => .inr ⟨_, _, rfl⟩, fun _ => List.mem_cons_self⟩
      · intro x hx'; simp [State.refer, hx']
      · exact ⟨(fun _ _ h => by cases h; simp), (fun h => by cases h)⟩
    lams := by
      show Lams s2.lambdas _ _ _ _
      rw [e.same.lambdas]; exact h1.lams.refer _ (fun j h => by cases h)
    memory := h1.memory.refer ⟨S.addr, k, z, .name name⟩ _ hw hem fun l hl => by
      rw [findIn, hl0] at hl; cases hl
    history := by
      have hf : State.find { S with used := name :: S.used } (.name name) = none := hl0
      show History _ _ _ (Reference.spell _ (State.find { S with used := name :: S.used } (.name name)) ++ S.writes)
      rw [hf]
      show History _ _ _ (spelled S.addr 1 z ++ S.writes)
      rw [spelled_eq]
      refine ⟨by show written s2.log = _; rw [hw]; exact congrArg _ h1.history.writes, fun x m id' fs' hx hm => ?_⟩
      by_cases hxn : x = name
      · subst hxn
        have hx : some { n with entry := .forward id ({ token := t, addr := s1.writeAddr, kind := k, size := z } :: fs) } = some m := by rw [← hx]; simp [setNode]
        cases hx
        simp only [Entry.forward.injEq] at hm
        obtain ⟨-, rfl⟩ := hm
        show List.filter _ (_ :: S.refs) = _
        rw [List.filter_cons_of_pos (by simp), List.map_cons]
        congr 1
        · rw [refOf, ← h1.addr]
        · rcases he with he | ⟨id'', fs'', he⟩
          · rw [p4 he, List.map_nil, List.filter_eq_nil_iff]
            intro q hq hq'
            obtain ⟨n', _, _, a1, a2, -⟩ := h1.tables.wait q hq x (by simpa using hq') hl0
            rw [hn1] at a1; cases a1; rw [he] at a2; cases a2
          · rw [p3 _ _ he]
            exact h1.history.order x n id'' fs'' hn1 he
      · have hx' : s1.symtab x = some m := by
          rw [← hsym x hxn, ← hx]
          show _ = if x = name then _ else s2.symtab x
          rw [if_neg hxn]
        show List.filter _ (_ :: S.refs) = _
        rw [List.filter_cons_of_neg (by simpa using Ne.symm hxn)]
        exact h1.history.order x m id' fs' hx' hm }

theorem emitLambdaRef_sim {i : Nat} {s : Asm} {S : State} (h : Sim i s S) (t : Token) (k : RefKind) (z : RefSize) (r : Bool) (hs : (emitLambdaRef t k z r s).2.success = true) :
    Sim i (emitLambdaRef t k z r s).2 (State.refer k z (.lambda S.count) { S with opened := S.count :: S.opened, count := S.count + 1 }) := by
  unfold emitLambdaRef at *
  dsimp only at *
  obtain ⟨e, hx⟩ := andThen_ok (emitPlaceholder_emits t k z none (s.numLabels + 1) r { s with numLabels := s.numLabels + 1 }) (.same rfl rfl) hs
  rw [hx]
  generalize (emitPlaceholder t k z none (s.numLabels + 1) r { s with numLabels := s.numLabels + 1 }).2 = s2 at *
  have ha := e.addr
  have hw := e.written
  have hem := e.emitted
  have hwa : ({ s with numLabels := s.numLabels + 1 } : Asm).writeAddr = S.addr := h.addr.symm
  rw [hwa] at ha hw hem
  have hc : S.closed.lookup S.count = none := by
    cases hc : S.closed.lookup S.count with
    | none => rfl
    | some a => exact absurd (h.lams.below _ _ hc) (Nat.lt_irrefl _)
  exact {
    readBuf := e.same.readBuf.trans h.readBuf
    addr := ha.symm
    scope := h.scope.trans e.same.scope.symm
    anonymous := by show _ = s2.atLabels.map _; rw [e.same.atLabels]; exact h.anonymous
    included := h.included.trans e.same.includes.symm
    deferred := by show _ = (s2.deferred.drop i).map _; rw [e.same.deferred]; exact h.deferred
    index := by show _ ≤ s2.deferred.length; rw [e.same.deferred]; exact h.index
    tables := by
      show Tables s2.symtab s2.names _ _ _ _
      rw [e.same.symtab, e.same.names]; exact h.tables.refer _ (fun n h => by cases h)
    lams := by
      show Lams (_ :: s2.lambdas) _ _ _ _
      rw [e.same.lambdas]
      have := h.lams.open { token := t, labelId := s.numLabels + 1, lambdaId := s2.numLambdas, addr := s.writeAddr, kind := k, size := z }
      rw [refOf, ← h.addr] at this
      rw [← h.addr]
      exact this
    memory := h.memory.refer ⟨S.addr, k, z, .lambda S.count⟩ _ hw hem fun l hl => by
      rw [findIn, hc] at hl; cases hl
    history := by
      have hf : State.find { S with opened := S.count :: S.opened, count := S.count + 1 } (.lambda S.count) = none := hc
      show History _ s2.symtab _ (Reference.spell _ (State.find { S with opened := S.count :: S.opened, count := S.count + 1 } (.lambda S.count)) ++ S.writes)
      rw [hf]
      show History _ _ _ (spelled S.addr 1 z ++ S.writes)
      rw [spelled_eq, e.same.symtab]
      exact h.history.refer _ _ hw (fun _ _ _ _ h => by cases h) }

/-- A reference to a label, a lambda or an anonymous label. -/
theorem emitLabelRef_sim {i : Nat} {s : Asm} {S : State} (h : Sim i s S) (t : Token) (k : RefKind) (z : RefSize) (ref : Str) (r : Bool)
    (hok : (emitLabelRef t k z ref r s).1 = true) (hs : (emitLabelRef t k z ref r s).2.success = true) :
    ∃ S', Refers ref k z S S' ∧ Sim i (emitLabelRef t k z ref r s).2 S' := by
  unfold emitLabelRef at *
  by_cases hb : ref = [ch '{']
  · rw [if_pos hb] at hs ⊢
    exact ⟨_, ⟨_, _, if_pos hb, rfl⟩, emitLambdaRef_sim h t k z r hs⟩
  rw [if_neg hb] at hs hok ⊢
  generalize hre : resolveLabelRef t ref s = re at *
  obtain ⟨o, s1⟩ := re
  cases o with
  | none => cases hok
  | some full =>
    obtain ⟨rfl, hfull⟩ := resolveLabelRef_some hre hb
    dsimp only at *
    by_cases hat : full = [ch '@']
    · rw [if_pos hat] at hs hok hfull ⊢
      have href : ref = str "@" := by
        by_contra hne
        unfold fullName at hfull
        rw [if_neg (by rintro (h | h); exacts [hb h, hne h])] at hfull
        split at hfull
        · split at hfull <;> cases hfull
        · unfold resolveLabelRef at hre; cases hre
      cases hl : s1.atLabels with
      | nil => rw [hl] at hok; cases hok
      | cons l ls =>
        rw [hl] at hs
        have hS : S.anonymous = l.addr :: ls.map (·.addr) := by rw [h.anonymous, hl]; rfl
        refine ⟨State.refer k z (.place l.addr) { S with anonymous := ls.map (·.addr) }, ⟨.place l.addr, _, ?_, rfl⟩, ?_⟩
        · unfold State.target
          rw [if_neg (show ref ≠ str "{" from hb), if_pos href, hS]
        · obtain ⟨-, hr, e⟩ := emitBackwardRef_emits t k z none l.labelId l.addr true r { s1 with atLabels := ls } hs
          have h1 : Sim i { s1 with atLabels := ls } { S with anonymous := ls.map (·.addr) } :=
            ⟨h.readBuf, h.addr, h.scope, rfl, h.included, h.deferred, h.index, h.tables, h.lams, h.memory, h.history⟩
          exact h1.refer k z (.place l.addr) l.addr rfl (fun j h => by cases h) hr e
    · rw [if_neg hat] at hs hok hfull ⊢
      have hne : ref ≠ str "@" := by
        rintro rfl
        unfold fullName at hfull
        rw [if_pos (.inr rfl)] at hfull; cases hfull
      have htar : S.target ref = some (.name full, { S with used := full :: S.used }) := by
        unfold State.target
        rw [if_neg (show ref ≠ str "{" from hb), if_neg hne, h.scope, ← hfull]; rfl
      refine ⟨State.refer k z (.name full) { S with used := full :: S.used }, ⟨_, _, htar, rfl⟩, ?_⟩
      cases full with
      | nil => cases hok
      | cons c rest =>
        dsimp only at *
        by_cases hrun : isRunic c = true
        · rw [if_pos hrun] at hok; cases hok
        rw [if_neg hrun] at hs hok ⊢
        generalize hfc : findOrCreate t (c :: rest) s1 = fc at *
        obtain ⟨o, s2⟩ := fc
        cases o with
        | none => cases hok
        | some n =>
          obtain ⟨h2, hn, -⟩ := findOrCreate_sim h hfc
          dsimp only at *
          cases hen : n.entry with
          | unknown => rw [hen] at hs; exact emitForwardRef_sim h2 t k z _ n r hn (.inl hen) hs
          | forward id fs => rw [hen] at hs; exact emitForwardRef_sim h2 t k z _ n r hn (.inr ⟨id, fs, hen⟩) hs
          | «macro» a b d => rw [hen] at hok; cases hok
          | label id addr =>
            rw [hen] at hs
            have h3 := h2.mark (c :: rest) { n with referenced := true, entry := .label id addr } n hn hen.symm (by simp) rfl
            dsimp only at hs ⊢
            have hl : findIn S.labels S.closed (.name (c :: rest)) = some addr := by
              rw [findIn, h2.tables.labels, hn, Option.bind_some, hen]; rfl
            obtain ⟨-, hr, e⟩ := emitBackwardRef_emits t k z (some (c :: rest)) id addr true r _ hs
            exact h3.refer k z _ addr hl (fun j h => by cases h) hr e

/-! ## Labels -/

theorem placeLabel_sim {i : Nat} {s : Asm} {S : State} (h : Sim i s S) (t : Token) (name : Str) (n : Node) (id : Short) (fs : List FRef) (hn : s.symtab name = some n)
    (he : labelOf n.entry = none ∧ bodyOf n.entry = none) (hfs : ∀ f ∈ fs, refOf f (.name name) ∈ S.refs) (hall : ∀ r ∈ S.refs, r.target = .name name → ∃ f ∈ fs, r = refOf f (.name name))
    (hmen : fs ≠ [] ↔ Mentioned n) (hord : S.refs.filter (fun r => r.target = .name name) = fs.map fun f => refOf f (.name name))
    (hs : (placeLabel t name n id fs s).2.success = true) : Sim i (placeLabel t name n id fs s).2 { S with labels := (name, S.addr) :: S.labels, writes := S.fill (.name name) ++ S.writes } := by
  unfold placeLabel at *
  dsimp only at *
  have hs1 : (patchAll name id s.writeAddr fs (setNode name { n with entry := .label id s.writeAddr } s)).success = true := hs
  obtain ⟨w, a, e, hw, hr, hh, hfill⟩ := patchAll_emits name id s.writeAddr fs _ hs1
  clear hs hs1
  generalize patchAll name id s.writeAddr fs (setNode name { n with entry := .label id s.writeAddr } s) = s2 at *
  have hwr : written s2.log = w ++ written s.log := e.written
  have hem : emitted s2.log = emitted s.log := e.emitted
  have hl0 : S.labels.lookup name = none := by rw [h.tables.labels, hn]; exact he.1
  have lk : ∀ k, ((name, S.addr) :: S.labels).lookup k = if k = name then some S.addr else S.labels.lookup k := fun k => lookup_cons _ _ _ _
  exact {
    readBuf := e.same.readBuf.trans h.readBuf
    addr := h.addr
    scope := h.scope.trans e.same.scope.symm
    anonymous := by show _ = s2.atLabels.map _; rw [e.same.atLabels]; exact h.anonymous
    included := h.included.trans e.same.includes.symm
    deferred := by show _ = (s2.deferred.drop i).map _; rw [e.same.deferred]; exact h.deferred
    index := by show _ ≤ s2.deferred.length; rw [e.same.deferred]; exact h.index
    tables := by
      refine h.tables.set (names' := s2.names) name { n with entry := .label id s.writeAddr, referenced := !fs.isEmpty } (fun e => by rw [e, h.tables.brace] at hn; cases hn) (by simp [setNode, putSymbol]) ?_ ?_ ?_ ?_ ?_ ?_ (fun _ _ => rfl)
        (fun _ _ _ h => by cases h) (fun _ h => h) (fun _ _ h => by cases h) ?_ ?_ ?_ ?_ ?_
      · intro x hx'
        show (if x = name then _ else s2.symtab x) = _
        rw [if_neg hx', e.same.symtab]; simp [setNode, hx']
      · rw [e.same.names]; exact h.tables.names _ _ hn
      · rw [e.same.names]; exact fun _ h => h
      · rw [lk, if_pos rfl, h.addr]; rfl
      · intro k hk; rw [lk, if_neg hk]
      · show S.macros.lookup name = none
        rw [h.tables.macros, hn]; exact he.2
      · intro r _ _ hx; rw [lk, if_pos rfl] at hx; cases hx
      · intro r hr' _ _ _; exact .inl hr'
      · rw [h.tables.used name]
        constructor
        · rintro ⟨m, h1, h2⟩
          rw [hn] at h1; cases h1
          exact .inl (by simpa using hmen.2 h2)
        · rintro (h1 | ⟨_, _, h1⟩)
          · exact ⟨n, hn, hmen.1 (by simpa using h1)⟩
          · cases h1
      · exact fun _ _ => Iff.rfl
      · exact ⟨(fun _ _ h => by cases h), (fun h => by cases h)⟩
    lams := by
      show Lams s2.lambdas _ _ _ _
      rw [e.same.lambdas]; exact h.lams
    memory := by
      refine h.memory.resolve (.name name) S.addr w hwr hem ?_ ?_ ?_ ?_ ?_
      · intro t' ht'
        cases t' with
        | name k =>
          rw [findIn, findIn, lk, if_neg]
          rintro rfl; exact ht' rfl
        | place _ => rfl
        | lambda _ => rfl
      · rw [findIn, lk, if_pos rfl]
      · intro p hp
        obtain ⟨f, hf, hc⟩ := hw p hp
        exact ⟨_, hfs f hf, rfl, hc⟩
      · intro r hr' ht'
        obtain ⟨f, hf, rfl⟩ := hall r hr' ht'
        rw [h.addr]
        exact hr f hf
      · intro hd r hr' ht'
        obtain ⟨f, hf, rfl⟩ := hall r hr' ht'
        rw [h.addr]
        refine ⟨hr f hf, hh (fun f hf g hg hne => ?_) f hf⟩
        exact h.memory.ref_disjoint hd (hfs f hf) (hfs g hg) (fun e => hne (by simp only [refOf, Reference.mk.injEq] at e; rw [e.1, e.2.1, e.2.2.1]))
    history := by
      have hfe : S.fill (.name name) = w := by
        unfold State.fill
        rw [hord, hfill, ← List.map_reverse, List.flatMap_map]
        congr 1
        funext f
        show spelled f.addr (refValue f.kind f.addr S.addr) f.size = _
        rw [spelled_eq, h.addr]
      rw [hfe]
      refine h.history.next w hwr fun x m id' fs' hx hm => ?_
      by_cases hxn : x = name
      · subst hxn
        have hx : some { n with entry := .label id s.writeAddr, referenced := !fs.isEmpty } = some m := by rw [← hx]; simp [setNode, putSymbol]
        cases hx; cases hm
      · refine ⟨m, ?_, hm⟩
        have hx : (if x = name then _ else s2.symtab x) = some m := hx
        rw [if_neg hxn, e.same.symtab] at hx
        simpa [setNode, hxn] using hx }

theorem registerLabel_sim {i : Nat} {s : Asm} {S : State} (h : Sim i s S) (t : Token) (name : Str)
    (hok : (registerLabel t name s).1 = true) (hs : (registerLabel t name s).2.success = true) :
    ∃ S', Defines name S S' ∧ Sim i (registerLabel t name s).2 S' := by
  unfold registerLabel at *
  generalize hfc : findOrCreate t name s = fc at *
  obtain ⟨o, s1⟩ := fc
  cases o with
  | none => cases hok
  | some n =>
    obtain ⟨h1, hn, -⟩ := findOrCreate_sim h hfc
    dsimp only at *
    unfold defineLabel at *
    have hlab : labelOf n.entry = none → S.labels.lookup name = none := fun h => by rw [h1.tables.labels, hn]; exact h
    cases he : n.entry with
    | unknown =>
      rw [he] at hs hlab
      have h2 : Sim i { s1 with numLabels := s1.numLabels + 1 } S := ⟨h1.readBuf, h1.addr, h1.scope, h1.anonymous, h1.included, h1.deferred, h1.index, h1.tables, h1.lams, h1.memory, h1.history⟩
      refine ⟨_, ⟨hlab rfl, rfl⟩, placeLabel_sim h2 t name n _ [] hn (by rw [he]; exact ⟨rfl, rfl⟩) (by simp) ?_
        ⟨fun h => absurd rfl h, fun h => by
          rcases h with h | ⟨_, _, h⟩
          · rw [(h1.tables.marked name n hn).2 he] at h; cases h
          · rw [he] at h; cases h⟩ ?_ hs⟩
      · intro r hr ht
        obtain ⟨n', id, fs, a1, a2, -⟩ := h1.tables.wait r hr name ht (hlab rfl)
        rw [hn] at a1; cases a1; rw [he] at a2; cases a2
      · rw [List.map_nil, List.filter_eq_nil_iff]
        intro r hr ht
        obtain ⟨n', id, fs, a1, a2, -⟩ := h1.tables.wait r hr name (by simpa using ht) (hlab rfl)
        rw [hn] at a1; cases a1; rw [he] at a2; cases a2
    | forward id fs =>
      rw [he] at hs hlab
      refine ⟨_, ⟨hlab rfl, rfl⟩, placeLabel_sim h1 t name n id fs hn (by rw [he]; exact ⟨rfl, rfl⟩) (h1.tables.fwd name n id fs hn he) ?_
        ⟨fun _ => .inr ⟨_, _, he⟩, fun _ => (h1.tables.marked name n hn).1 id fs he⟩ (h1.history.order name n id fs hn he) hs⟩
      intro r hr ht
      obtain ⟨n', id', fs', a1, a2, a3⟩ := h1.tables.wait r hr name ht (hlab rfl)
      rw [hn] at a1; cases a1; rw [he] at a2; cases a2
      exact a3
    | label id a => rw [he] at hok; cases hok
    | «macro» a b c => rw [he] at hok; cases hok

theorem processLambdaClose_sim {i : Nat} {s : Asm} {S : State} (h : Sim i s S) (t : Token) (hok : (processLambdaClose t s).1 = true) (hs : (processLambdaClose t s).2.success = true) :
    ∃ k ks, S.opened = k :: ks ∧ Sim i (processLambdaClose t s).2 { S with opened := ks, closed := (k, S.addr) :: S.closed, writes := S.fill (.lambda k) ++ S.writes } := by
  unfold processLambdaClose at *
  cases hl : s.lambdas with
  | nil => rw [hl] at hok; cases hok
  | cons f fs =>
    rw [hl] at hs hok
    have L := h.lams
    rw [hl] at L
    cases ho : S.opened with
    | nil => rw [ho] at L; exact absurd L.opened (by intro h; cases h)
    | cons k ks =>
      rw [ho] at L
      obtain ⟨hmem, hall⟩ : refOf f (.lambda k) ∈ S.refs ∧ ∀ r ∈ S.refs, r.target = .lambda k → r = refOf f (.lambda k) := by
        cases L.opened; assumption
      refine ⟨k, ks, rfl, ?_⟩
      dsimp only at hs hok ⊢
      have e0 := calculateAddr_emits f.token f.kind f.addr s.writeAddr s
      have hv := calculateAddr_value f.token f.kind f.addr s.writeAddr s
      generalize calculateAddr f.token f.kind f.addr s.writeAddr s = c at *
      obtain ⟨v, s1⟩ := c
      dsimp only at *
      subst hv
      obtain ⟨⟨hr, e⟩, hx⟩ := andThen_ok (emitAddr_emits f.token f.kind f.size _ none true { s1 with writeAddr := f.addr }) (Ext.trans (Ext.same rfl rfl) (Ext.trans (putSymbol_ext _ _ _) (.same rfl rfl))) hs
      rw [hx]
      clear hs hok hx
      generalize (emitAddr f.token f.kind f.size (refValue f.kind f.addr s.writeAddr) none true { s1 with writeAddr := f.addr }).2 = s2 at *
      have hwr : written s2.log = numberAt f.addr f.size (BitVec.ofInt 16 (refValue f.kind f.addr s.writeAddr)) ++ written s.log := by
        rw [e.written]; show _ ++ written s1.log = _; rw [e0.written]; rfl
      have hem : emitted s2.log = emitted s.log := by
        rw [e.emitted]; show _ ++ emitted s1.log = _; rw [e0.emitted]; rfl
      have lk : ∀ j, ((k, S.addr) :: S.closed).lookup j = if j = k then some S.addr else S.closed.lookup j := fun j => lookup_cons _ _ _ _
      exact {
        readBuf := e.same.readBuf.trans (e0.same.readBuf.trans h.readBuf)
        addr := h.addr
        scope := h.scope.trans (e.same.scope.trans e0.same.scope).symm
        anonymous := by show _ = s2.atLabels.map _; rw [e.same.atLabels]; show _ = s1.atLabels.map _; rw [e0.same.atLabels]; exact h.anonymous
        included := h.included.trans (e.same.includes.trans e0.same.includes).symm
        deferred := by show _ = (s2.deferred.drop i).map _; rw [e.same.deferred]; show _ = (s1.deferred.drop i).map _; rw [e0.same.deferred]; exact h.deferred
        index := by show _ ≤ s2.deferred.length; rw [e.same.deferred]; show _ ≤ s1.deferred.length; rw [e0.same.deferred]; exact h.index
        tables := by
          show Tables s2.symtab s2.names _ _ _ _
          rw [e.same.symtab, e.same.names]
          show Tables s1.symtab s1.names _ _ _ _
          rw [e0.same.symtab, e0.same.names]
          exact h.tables
        lams := L.close S.addr
        memory := by
          refine h.memory.resolve (.lambda k) S.addr _ hwr hem ?_ ?_ ?_ ?_ ?_
          · intro t' ht'
            cases t' with
            | name _ => rfl
            | place _ => rfl
            | lambda j =>
              rw [findIn, findIn, lk, if_neg]
              rintro rfl; exact ht' rfl
          · rw [findIn, lk, if_pos rfl]
          · intro p hp
            refine ⟨_, hmem, rfl, ?_⟩
            show p.1 ∈ cells f.addr f.size
            rw [← numberAt_addrs f.addr f.size]
            exact List.mem_map_of_mem hp
          · intro r hr' ht'
            rw [hall r hr' ht', h.addr]
            exact hr
          · intro _ r hr' ht'
            rw [hall r hr' ht', h.addr]
            exact ⟨hr, numberAt_holds _ _ _ _⟩
        history := by
          have hfe : S.fill (.lambda k) = numberAt f.addr f.size (BitVec.ofInt 16 (refValue f.kind f.addr s.writeAddr)) := by
            unfold State.fill
            rw [L.only]
            show spelled f.addr (refValue f.kind f.addr S.addr) f.size ++ [] = _
            rw [List.append_nil, spelled_eq, h.addr]
          rw [hfe]
          show History _ s2.symtab _ _
          rw [e.same.symtab]
          show History _ s1.symtab _ _
          rw [e0.same.symtab]
          exact h.history.next _ hwr fun _ n _ _ h1 h2 => ⟨n, h1, h2⟩ }

end Buxn.Asm.Meaning
