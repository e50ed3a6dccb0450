import Verif.Asm.Places
import Verif.Asm.Lambdas
/-!
# C58: the symbol file

`buxn-asm` writes a file `.sym` with the labels of the program; `sym-view` and other tools read it.
-/

namespace Buxn.Asm
open Buxn.VM Spec

namespace SymFile

/-- What `buxn_asm_put_symbol` of `src/asm.c:87-107` writes for a symbol. `none`: a label without a name, on which `strlen` is undefined.
Errors of `fwrite` are not modelled. -/
def put (a : Short) (i : SymInfo) : Option Str :=
  match i.type with
  | .label => i.name.map fun name => (a >>> 8).setWidth 8 :: a.setWidth 8 :: (cstr name ++ [0])
  | _ => some []

/-- The file after these events, newest first. -/
def contents : List Event → Option Str
  | [] => some []
  | .sym a i :: l => do return (← contents l) ++ (← put a i)
  | .rom _ _ _ :: l | .error _ _ :: l | .warning _ _ :: l | .fopen _ :: l | .fclose _ :: l | .ref _ _ _ _ _ :: l => contents l

/-- The inner loop of `src/asm/sym-view.c:13-15`: characters up to a zero, and what comes after it. `none`: `fgetc` is at the end of the file, where it
answers EOF, which is not zero, for ever. -/
def viewName : Str → Option (Str × Str)
  | [] => none
  | c :: t => if c = 0 then some ([], t) else (viewName t).map fun (n, r) => (c :: n, r)

/-- The loop of `src/asm/sym-view.c:7-17`: the entries that are printed. `none`: it does not end. The first argument bounds the entries. -/
def view : Nat → Str → Option (List (Byte × Byte × Str))
  | _, [] => some []
  | 0, _ => none
  | fuel + 1, h :: t =>
    match t with
    | [] => none
    | l :: t =>
      match viewName t with
      | none => none
      | some (n, r) => (view fuel r).map fun es => (h, l, n) :: es

/-- The bound is no restriction: an entry is at least three bytes. -/
def viewAll (file : Str) : Option (List (Byte × Byte × Str)) := view file.length file

end SymFile

namespace Spec

/-- The entry of a label. -/
def entry (x : Short × SymInfo) : Short × Str := (x.1, cstr (x.2.name.getD []))

/-- The address of an entry, from its two bytes. -/
def addrOf (hi lo : Byte) : Short := BitVec.ofNat 16 (hi.toNat * 256 + lo.toNat)

end Spec

namespace SymFile

theorem cstr_ne {name : Str} {c : Byte} (h : c ∈ cstr name) : c ≠ 0 := by
  induction name with
  | nil => cases h
  | cons d t ih =>
    unfold cstr at *
    rw [List.takeWhile_cons] at h
    split at h
    · rename_i hd
      rcases List.mem_cons.1 h with rfl | h
      · simpa using hd
      · exact ih h
    · cases h

theorem viewName_cstr (name r : Str) : viewName (cstr name ++ 0 :: r) = some (cstr name, r) := by
  induction name with
  | nil => rfl
  | cons c t ih =>
    unfold cstr at *
    rw [List.takeWhile_cons]
    split
    · rename_i h
      rw [List.cons_append, viewName, if_neg (by simpa using h), ih]
      rfl
    · rfl

/-- A name that is cut off. -/
theorem viewName_cut (name p q : Str) (h : cstr name = p ++ q) : viewName p = none := by
  have hp : ∀ c ∈ p, c ≠ 0 := by
    intro c hc
    have : c ∈ cstr name := by rw [h]; exact List.mem_append_left _ hc
    exact cstr_ne this
  clear h
  induction p with
  | nil => rfl
  | cons c t ih => rw [viewName, if_neg (hp c (List.mem_cons_self ..)), ih fun x hx => hp x (List.mem_cons_of_mem _ hx)]; rfl

/-- The file with these entries. -/
def bytes : List (Short × Str) → Str
  | [] => []
  | (a, n) :: l => (a >>> 8).setWidth 8 :: a.setWidth 8 :: (n ++ 0 :: bytes l)

theorem bytes_append (l l' : List (Short × Str)) : bytes (l ++ l') = bytes l ++ bytes l' := by
  induction l with
  | nil => rfl
  | cons x l ih => simp [bytes, ih]

/-- As the reader prints it. -/
def printed (x : Short × Str) : Byte × Byte × Str := ((x.1 >>> 8).setWidth 8, x.1.setWidth 8, x.2)

theorem view_bytes (l : List (Short × Str)) (h : ∀ x ∈ l, ∃ n, x.2 = cstr n) (fuel : Nat) (hf : (bytes l).length ≤ fuel) :
    view fuel (bytes l) = some (l.map printed) := by
  induction l generalizing fuel with
  | nil => cases fuel <;> rfl
  | cons x l ih =>
    obtain ⟨a, nm⟩ := x
    obtain ⟨n, hn⟩ := h _ (List.mem_cons_self ..)
    dsimp only at hn
    subst hn
    have hlen : (bytes ((a, cstr n) :: l)).length = (cstr n).length + (bytes l).length + 3 := by simp [bytes]; omega
    rw [hlen] at hf
    match fuel with
    | fuel + 1 =>
      show view (fuel + 1) (_ :: _ :: (cstr n ++ 0 :: bytes l)) = _
      unfold view
      dsimp only
      rw [viewName_cstr]
      dsimp only
      rw [ih (fun x hx => h x (List.mem_cons_of_mem _ hx)) fuel (by omega)]
      rfl

/-- A file that is cut off: the reader stops only where an entry ends. -/
theorem view_cut (l : List (Short × Str)) (h : ∀ x ∈ l, ∃ n, x.2 = cstr n) (p q : Str) (hb : bytes l = p ++ q) (fuel : Nat)
    (es : List (Byte × Byte × Str)) (hv : view fuel p = some es) : ∃ l1 l2, l = l1 ++ l2 ∧ p = bytes l1 := by
  induction l generalizing p fuel es with
  | nil =>
    refine ⟨[], [], rfl, ?_⟩
    cases p with
    | nil => rfl
    | cons _ _ => cases hb
  | cons x l ih =>
    obtain ⟨a, nm⟩ := x
    obtain ⟨n, hn⟩ := h _ (List.mem_cons_self ..)
    dsimp only at hn
    subst hn
    match p, fuel with
    | [], _ => exact ⟨[], _, rfl, rfl⟩
    | _ :: _, 0 => cases hv
    | [_], fuel + 1 => cases hv
    | c :: d :: t, fuel + 1 =>
      simp only [bytes, List.cons_append, List.cons.injEq] at hb
      obtain ⟨rfl, rfl, hb⟩ := hb
      unfold view at hv
      dsimp only at hv
      rcases List.append_eq_append_iff.1 hb with ⟨u, e1, e2⟩ | ⟨u, e1, e2⟩
      · -- the name is complete
        cases u with
        | nil =>
          rw [List.append_nil] at e1
          rw [e1, viewName_cut n (cstr n) [] (by simp)] at hv
          cases hv
        | cons z u =>
          simp only [List.cons_append, List.cons.injEq] at e2
          obtain ⟨rfl, e2⟩ := e2
          rw [e1, viewName_cstr] at hv
          dsimp only at hv
          cases hv' : view fuel u with
          | none => rw [hv'] at hv; cases hv
          | some es' =>
            obtain ⟨l1, l2, r1, r2⟩ := ih (fun x hx => h x (List.mem_cons_of_mem _ hx)) u e2 fuel es' hv'
            exact ⟨(a, cstr n) :: l1, l2, by rw [r1]; rfl, by rw [e1, r2]; rfl⟩
      · rw [viewName_cut n t u e1] at hv
        cases hv

theorem addr_bytes (a : Short) : addrOf ((a >>> 8).setWidth 8) (a.setWidth 8) = a := by
  apply BitVec.eq_of_toNat_eq
  simp only [addrOf, BitVec.toNat_ofNat, BitVec.toNat_setWidth, BitVec.toNat_ushiftRight, Nat.shiftRight_eq_div_pow]
  have := a.isLt
  omega

/-- The labels that were announced all have a name. -/
def Named (log : List Event) : Prop := ∀ x ∈ labels log, x.2.name ≠ none

theorem contents_bytes (log : List Event) (h : Named log) : contents log = some (bytes ((labels log).reverse.map entry)) := by
  induction log with
  | nil => rfl
  | cons e l ih =>
    cases e with
    | sym a i =>
      by_cases hi : i.type = .label
      · have el : labels (.sym a i :: l) = (a, i) :: labels l := by simp [labels, hi]
        have hn : i.name ≠ none := h (a, i) (by rw [el]; exact List.mem_cons_self ..)
        have ih := ih fun x hx => h x (by rw [el]; exact List.mem_cons_of_mem _ hx)
        obtain ⟨n, hn⟩ := Option.ne_none_iff_exists'.1 hn
        rw [el, contents, ih]
        simp [put, hi, hn, bytes_append, entry, bytes, List.map_append]
      · have el : labels (.sym a i :: l) = labels l := by simp [labels, hi]
        have ih := ih fun x hx => h x (by rw [el]; exact hx)
        have hp : put a i = some [] := by
          unfold put
          split
          · rename_i e; exact absurd e hi
          · rfl
        rw [el, contents, ih, hp]
        simp
    | _ => exact ih h

theorem mem_labels {log : List Event} {x : Short × SymInfo} (h : x ∈ labels log) : .sym x.1 x.2 ∈ log ∧ x.2.type = .label := by
  obtain ⟨e, h1, h2⟩ := List.mem_filterMap.1 h
  cases e with
  | sym a i =>
    dsimp only at h2
    split at h2
    · rename_i hi
      cases h2
      exact ⟨h1, hi⟩
    · cases h2
  | _ => cases h2

end SymFile

open SymFile

theorem assemble_named (files : Files) (hfiles : ∀ name st, files name = some st → ∃ raw, st = raw.map some ∧ ProperLines raw)
    (fuel : Nat) (filename : Str) (ok : Bool) (s : Asm) (h : assemble files fuel filename = some (ok, s)) : Named s.log := by
  intro x hx
  obtain ⟨a, i⟩ := x
  obtain ⟨h1, h2⟩ := mem_labels hx
  obtain ⟨t, _, hs⟩ := C57_positions files hfiles fuel filename ok s h a i h1
  obtain ⟨ty, nm, gen, reg, id⟩ := i
  cases h2
  obtain ⟨_, hs⟩ := hs
  cases gen
  · obtain ⟨n, e, _⟩ := hs
    exact fun h => by cases e.symm.trans h
  · obtain ⟨_, n, e⟩ := hs
    exact fun h => by cases e.symm.trans h

/-- **C58.** In whatever way the assembly ends: the symbol file is defined, and its reader finds in it the address and the name of every label, in the
order in which they were announced, and nothing else. -/
theorem C58_round_trip (files : Files) (hfiles : ∀ name st, files name = some st → ∃ raw, st = raw.map some ∧ ProperLines raw)
    (fuel : Nat) (filename : Str) (ok : Bool) (s : Asm) (h : assemble files fuel filename = some (ok, s)) :
    ∃ file es, contents s.log = some file ∧ viewAll file = some es ∧ es.map (fun e => (addrOf e.1 e.2.1, e.2.2)) = (labels s.log).reverse.map entry := by
  have hn := assemble_named files hfiles fuel filename ok s h
  refine ⟨_, _, contents_bytes _ hn, view_bytes _ ?_ _ (Nat.le_refl _), ?_⟩
  · intro x hx
    obtain ⟨y, _, rfl⟩ := List.mem_map.1 hx
    exact ⟨_, rfl⟩
  · rw [List.map_map]
    conv_rhs => rw [← List.map_id ((labels s.log).reverse.map entry)]
    refine List.map_congr_left fun x _ => ?_
    simp [printed, addr_bytes]

/-- **C58.** If the file is cut off, by a crash or a full disk, its reader either never stops or sees the file of the first few labels. -/
theorem C58_cut_off_partial (files : Files) (hfiles : ∀ name st, files name = some st → ∃ raw, st = raw.map some ∧ ProperLines raw)
    (fuel : Nat) (filename : Str) (ok : Bool) (s : Asm) (h : assemble files fuel filename = some (ok, s)) (file p q : Str)
    (hw : contents s.log = some file) (hp : file = p ++ q) (es : List (Byte × Byte × Str)) (hv : viewAll p = some es) :
    ∃ k, es.map (fun e => (addrOf e.1 e.2.1, e.2.2)) = ((labels s.log).reverse.map entry).take k := by
  have hn := assemble_named files hfiles fuel filename ok s h
  rw [contents_bytes _ hn] at hw
  cases hw
  have hc : ∀ x ∈ (labels s.log).reverse.map entry, ∃ n, x.2 = cstr n := by
    intro x hx
    obtain ⟨y, _, rfl⟩ := List.mem_map.1 hx
    exact ⟨_, rfl⟩
  obtain ⟨l1, l2, e, rfl⟩ := view_cut _ hc p q hp _ es hv
  rw [viewAll, view_bytes l1 (fun x hx => hc x (by rw [e]; exact List.mem_append_left _ hx)) _ (Nat.le_refl _)] at hv
  cases hv
  refine ⟨l1.length, ?_⟩
  rw [e, List.take_left, List.map_map]
  conv_rhs => rw [← List.map_id l1]
  refine List.map_congr_left fun x _ => ?_
  simp [printed, addr_bytes]

/-- **C58 fails** for the reader of a file that is cut off: it does not stop. -/
theorem C58_cut_off_violated : viewAll [0x01, 0x00, ch 'm', ch 'a', ch 'i', ch 'n'] = none := by decide

/-- **C58.** What a reference of an accepted program is about is in the symbol file: there is an entry with the address that the reference holds, and
with the name of the label. -/
theorem C58_references (files : Files) (fuel : Nat) (filename : Str) (s : Asm) (h : assemble files fuel filename = some (true, s))
    (hd : (emitted s.log).Nodup) (r : Ref) (hr : r ∈ Spec.refs s.log) :
    ∃ e ∈ (labels s.log).reverse.map entry, HoldsNumber (image s.log) r.addr r.size (refValue r.kind r.addr e.1) ∧
      ∀ name, r.target = some name → e.2 = cstr name := by
  obtain ⟨l, i, h1, h2, _, h4⟩ := C35_references files fuel filename s h hd r hr
  refine ⟨entry (l, i), List.mem_map.2 ⟨_, List.mem_reverse.2 h1, rfl⟩, h4, fun name hn => ?_⟩
  rw [entry, (h2.2 name hn).1]
  rfl

/-- **C58.** Labels with a name of their own are in the file once, in whatever way the assembly ends. -/
theorem C58_once (files : Files) (hfiles : ∀ name st, files name = some st → ∃ raw, st = raw.map some ∧ ProperLines raw)
    (fuel : Nat) (filename : Str) (ok : Bool) (s : Asm) (h : assemble files fuel filename = some (ok, s)) :
    ((labels s.log).filterMap fun x => if x.2.generated then none else x.2.name).Nodup := by
  refine List.Nodup.sublist ?_ (C57_names_once files hfiles fuel filename ok s h)
  generalize s.log = log
  induction log with
  | nil => exact .slnil
  | cons e l ih =>
    cases e with
    | sym a i =>
      by_cases hi : i.type = .label
      · have el : labels (.sym a i :: l) = (a, i) :: labels l := by simp [labels, hi]
        have ed : defines i = if i.generated then none else i.name := by simp only [defines, hi]
        rw [el, defined, syms, List.filterMap_cons, List.filterMap_cons]
        dsimp only
        rw [ed]
        generalize (if i.generated = true then none else i.name) = o
        cases o
        · exact ih
        · exact ih.cons_cons _
      · have el : labels (.sym a i :: l) = labels l := by simp [labels, hi]
        rw [el, defined, syms, List.filterMap_cons]
        dsimp only
        split
        · exact ih
        · exact ih.cons _
    | _ => exact ih

/-- The symbol file of a program with a lambda and two labels, one of them used before it is defined. -/
example : (assemble (filesOf [("m", "!x ?{ INC } @x")]) 100 (str "m")).bind (fun r => SymFile.contents r.2.log) =
    some ([0x01, 0x07] ++ str "@00" ++ [0, 0x01, 0x07] ++ str "x" ++ [0]) := by decide +kernel

example : viewAll ([0x01, 0x07] ++ str "@00" ++ [0, 0x01, 0x07] ++ str "x" ++ [0]) = some [(1, 7, str "@00"), (1, 7, str "x")] := by decide +kernel

end Buxn.Asm
