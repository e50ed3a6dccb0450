import Verif.Asm.SymFile
import Mathlib.Data.List.Pairwise
/-!
# C59: tags

`buxn-ctags` runs the assembler on a program and writes where macros and labels are defined, for editors.
-/

namespace Buxn.Asm
open Buxn.VM Spec

namespace Ctags

/-- `src/ctags.c:13-17`. -/
structure Tag where
  name : Option Str
  region : Region
  kind : Byte
  deriving DecidableEq

/-- `buxn_asm_put_symbol` and `add_tag`, `src/ctags.c:24-32`, `52-61`. -/
def putSymbol (i : SymInfo) (tags : List Tag) : List Tag :=
  if i.type = .macro then tags ++ [⟨i.name, i.region, ch 'm'⟩]
  else if i.type = .label ∧ ¬ i.generated then tags ++ [⟨i.name, i.region, ch 'l'⟩]
  else tags

/-- The tags after these events, newest event first. -/
def collect : List Event → List Tag
  | [] => []
  | .sym _ i :: l => putSymbol i (collect l)
  | .rom _ _ _ :: l | .error _ _ :: l | .warning _ _ :: l | .fopen _ :: l | .fclose _ :: l | .ref _ _ _ _ _ :: l => collect l

/-- `strcmp`: the sign of the difference of the first two characters that differ, as `unsigned char`. The strings end at a zero. -/
def strcmp : Str → Str → Int
  | [], [] => 0
  | [], c :: _ => 0 - c.toNat
  | c :: _, [] => c.toNat
  | c :: s, d :: t => if c ≠ d then (c.toNat : Int) - d.toNat else if c = 0 then 0 else strcmp s t

/-- `sort_tag`, `src/ctags.c:34-39`. `none`: a null pointer is compared. -/
def sortTag (x y : Tag) : Option Int := do return strcmp (← x.name) (← y.name)

/-- One line, `src/ctags.c:198-204`. `none`: a null pointer is printed. -/
def line (t : Tag) : Option Str :=
  t.name.map fun name => cstr name ++ [ch '\t'] ++ cstr t.region.file ++ str "\tgo " ++ str (toString (t.region.start.byte + 1)) ++ str "|;\"\t" ++ [t.kind] ++ [ch '\n']

def lines : List Tag → Option Str
  | [] => some []
  | t :: l => do return (← line t) ++ (← lines l)

/-- The second half of `main`, `src/ctags.c:172-216`: the exit code, and the file if one is written. `qsort` is a parameter; so is whether the file can be
created. Errors of `fprintf` are not modelled. `none`: a null pointer is printed. -/
def finish (qsort : List Tag → List Tag) (canOpen ok : Bool) (tags : List Tag) : Option (Nat × Option Str) :=
  if !ok && tags.isEmpty then some (1, none)
  else if !canOpen then some (1, none)
  else (lines (qsort tags)).map fun ls => (0, some (str "!_TAG_FILE_SORTED\t1\tbuxn-ctags\n" ++ ls))

/-- `parse_flag` of `src/bflag.h`: the rest of an argument that begins with the name of the flag. -/
def parseFlag (arg flag : Str) : Option Str := if flag.isPrefixOf arg then some (arg.drop flag.length) else none

/-- What the arguments ask for. -/
inductive Request
  | exit (code : Nat)
  | tag (input output : Str)
  deriving DecidableEq

/-- The first half of `main`, `src/ctags.c:126-166`. -/
def arguments : List Str → Option Str → Option Str → Request
  | [], none, _ => .exit 1
  | [], some input, output => .tag input (output.getD (str "tags"))
  | arg :: args, input, output =>
    match parseFlag arg (str "--help") with
    | some _ => .exit 0
    | none =>
      match parseFlag arg (str "-output=") with
      | some value =>
        match output with
        | some _ => .exit 1
        | none => arguments args input (some value)
      | none =>
        match input with
        | none => arguments args (some arg) output
        | some _ => .exit 1

end Ctags

namespace Spec

/-- The definitions that were announced, oldest first. -/
def definitions (log : List Event) : List SymInfo := ((syms log).reverse.map (·.2)).filter fun i => (defines i).isSome

/-- The line of an editor's tags file: name, file, a command that goes to the position (they count from one), kind. -/
def tagLine (i : SymInfo) : Str :=
  cstr (i.name.getD []) ++ str "\t" ++ cstr i.region.file ++ str "\tgo " ++ str (toString (i.region.start.byte + 1)) ++ str "|;\"\t" ++
    (if i.type = .macro then str "m" else str "l") ++ str "\n"

def header : Str := str "!_TAG_FILE_SORTED\t1\tbuxn-ctags\n"

/-- Strictly before in the order of bytes: a proper prefix, or less at the first difference. -/
def Before (x y : Str) : Prop := ∃ p, (x = p ∧ ∃ c r, y = p ++ c :: r) ∨ ∃ c d r s, x = p ++ c :: r ∧ y = p ++ d :: s ∧ c.toNat < d.toNat

/-- What `qsort` promises. -/
def Sorts (qsort : List Ctags.Tag → List Ctags.Tag) : Prop :=
  ∀ l, (∀ t ∈ l, t.name ≠ none) → (qsort l).Perm l ∧ (qsort l).Pairwise fun x y => ∀ v, Ctags.sortTag x y = some v → v ≤ 0

end Spec

namespace Ctags

theorem before_cons (c : Byte) (x y : Str) : Before (c :: x) (c :: y) ↔ Before x y := by
  constructor
  · rintro ⟨p, ⟨e, d, r, e'⟩ | ⟨d, d', r, r', e, e', h⟩⟩
    · subst e
      simp only [List.cons_append, List.cons.injEq, true_and] at e'
      exact ⟨x, .inl ⟨rfl, d, r, e'⟩⟩
    · cases p with
      | nil =>
        cases e
        cases e'
        omega
      | cons k p =>
        simp only [List.cons_append, List.cons.injEq] at e e'
        exact ⟨p, .inr ⟨d, d', r, r', e.2, e'.2, h⟩⟩
  · rintro ⟨p, ⟨e, d, r, e'⟩ | ⟨d, d', r, r', e, e', h⟩⟩
    · exact ⟨c :: p, .inl ⟨by rw [e], d, r, by rw [e']; rfl⟩⟩
    · exact ⟨c :: p, .inr ⟨d, d', r, r', by rw [e]; rfl, by rw [e']; rfl, h⟩⟩

theorem not_before_nil (x : Str) : ¬ Before x [] := by
  rintro ⟨p, ⟨_, d, r, e⟩ | ⟨d, d', r, r', _, e, _⟩⟩ <;> simp at e

theorem nil_before (c : Byte) (x : Str) : Before [] (c :: x) := ⟨[], .inl ⟨rfl, c, x, rfl⟩⟩

theorem head_before (c d : Byte) (x y : Str) (h : c ≠ d) : Before (c :: x) (d :: y) ↔ c.toNat < d.toNat := by
  constructor
  · rintro ⟨p, ⟨e, k, r, e'⟩ | ⟨k, k', r, r', e, e', h⟩⟩
    · subst e
      simp only [List.cons_append, List.cons.injEq] at e'
      exact absurd e'.1.symm h
    · cases p with
      | nil =>
        cases e
        cases e'
        exact h
      | cons j p =>
        simp only [List.cons_append, List.cons.injEq] at e e'
        rename_i hcd
        exact absurd (e.1.trans e'.1.symm) hcd
  · intro h
    exact ⟨[], .inr ⟨c, d, x, y, rfl, rfl, h⟩⟩

theorem cstr_cons (c : Byte) (x : Str) : cstr (c :: x) = if c = 0 then [] else c :: cstr x := by
  unfold cstr
  rw [List.takeWhile_cons]
  by_cases h : c = 0 <;> simp [h]

theorem pos_of_ne {c : Byte} (h : c ≠ 0) : 0 < c.toNat := by
  rcases Nat.eq_zero_or_pos c.toNat with e | e
  · exact absurd (BitVec.eq_of_toNat_eq e) h
  · exact e

theorem strcmp_cstr (x y : Str) : strcmp x y ≤ 0 ↔ cstr x = cstr y ∨ Before (cstr x) (cstr y) := by
  induction x generalizing y with
  | nil =>
    cases y with
    | nil => simp [strcmp]
    | cons d t =>
      have : strcmp [] (d :: t) ≤ 0 := by simp only [strcmp]; omega
      refine ⟨fun _ => ?_, fun _ => this⟩
      rw [cstr_cons]
      split
      · exact .inl rfl
      · exact .inr (nil_before _ _)
  | cons c s ih =>
    rw [cstr_cons]
    cases y with
    | nil =>
      simp only [strcmp]
      by_cases hc : c = 0
      · subst hc
        simp [cstr]
      · rw [if_neg hc]
        have := pos_of_ne hc
        constructor
        · omega
        · rintro (h | h)
          · cases h
          · exact absurd h (not_before_nil _)
    | cons d t =>
      rw [cstr_cons, strcmp]
      by_cases hcd : c = d
      · subst hcd
        rw [if_neg (not_not.2 rfl)]
        by_cases hc : c = 0
        · simp [hc]
        · rw [if_neg hc, if_neg hc, if_neg hc, ih, before_cons]
          simp
      · rw [if_pos hcd]
        by_cases hc : c = 0
        · subst hc
          rw [if_pos rfl, if_neg (Ne.symm hcd)]
          have h0 : (0 : Byte).toNat = 0 := rfl
          exact ⟨fun _ => .inr (nil_before _ _), fun _ => by omega⟩
        · rw [if_neg hc]
          have := pos_of_ne hc
          by_cases hd : d = 0
          · subst hd
            rw [if_pos rfl]
            have h0 : (0 : Byte).toNat = 0 := rfl
            constructor
            · omega
            · rintro (h | h)
              · cases h
              · exact absurd h (not_before_nil _)
          · rw [if_neg hd, head_before _ _ _ _ hcd]
            have hne : c.toNat ≠ d.toNat := fun e => hcd (BitVec.eq_of_toNat_eq e)
            constructor
            · intro h
              exact .inr (by omega)
            · rintro (h | h)
              · exact absurd (List.cons.inj h).1 hcd
              · omega

theorem before_asymm {x y : Str} (h : Before x y) (h' : Before y x) : False := by
  induction x generalizing y with
  | nil => exact not_before_nil _ h'
  | cons c x ih =>
    cases y with
    | nil => exact not_before_nil _ h
    | cons d y =>
      by_cases hcd : c = d
      · subst hcd
        exact ih ((before_cons _ _ _).1 h) ((before_cons _ _ _).1 h')
      · have := (head_before _ _ _ _ hcd).1 h
        have := (head_before _ _ _ _ (Ne.symm hcd)).1 h'
        omega

theorem before_total (x y : Str) : x = y ∨ Before x y ∨ Before y x := by
  induction x generalizing y with
  | nil =>
    cases y with
    | nil => exact .inl rfl
    | cons d y => exact .inr (.inl (nil_before _ _))
  | cons c x ih =>
    cases y with
    | nil => exact .inr (.inr (nil_before _ _))
    | cons d y =>
      by_cases hcd : c = d
      · subst hcd
        rw [before_cons, before_cons]
        rcases ih y with h | h
        · exact .inl (by rw [h])
        · exact .inr h
      · rw [head_before _ _ _ _ hcd, head_before _ _ _ _ (Ne.symm hcd)]
        have hne : c.toNat ≠ d.toNat := fun e => hcd (BitVec.eq_of_toNat_eq e)
        right
        omega

theorem before_trans {x y z : Str} (h : Before x y) (h' : Before y z) : Before x z := by
  induction x generalizing y z with
  | nil =>
    cases z with
    | nil => exact (not_before_nil _ h').elim
    | cons d z => exact nil_before _ _
  | cons c x ih =>
    cases y with
    | nil => exact (not_before_nil _ h).elim
    | cons d y =>
      cases z with
      | nil => exact (not_before_nil _ h').elim
      | cons e z =>
        by_cases hcd : c = d
        · subst hcd
          by_cases hce : c = e
          · subst hce
            rw [before_cons] at *
            exact ih h h'
          · rw [head_before _ _ _ _ hce] at *
            exact h'
        · have h1 := (head_before _ _ _ _ hcd).1 h
          by_cases hde : d = e
          · subst hde
            rw [head_before _ _ _ _ hcd]
            exact h1
          · have h2 := (head_before _ _ _ _ hde).1 h'
            rw [head_before _ _ _ _ (fun e => by subst e; omega)]
            omega

/-- The tag of a definition. -/
def tagOf (i : SymInfo) : Tag := ⟨i.name, i.region, if i.type = .macro then ch 'm' else ch 'l'⟩

/-- Macros and labels have names. -/
def WellNamed (log : List Event) : Prop := ∀ x ∈ syms log, x.2.type = .macro ∨ x.2.type = .label → x.2.name ≠ none

theorem collect_definitions (log : List Event) (h : WellNamed log) : collect log = (definitions log).map tagOf := by
  induction log with
  | nil => rfl
  | cons e l ih =>
    cases e with
    | sym a i =>
      have ih := ih fun x hx => h x (List.mem_cons_of_mem _ hx)
      have hi := h (a, i) (List.mem_cons_self ..)
      have hd : definitions (.sym a i :: l) = definitions l ++ (if (defines i).isSome then [i] else []) := by
        simp only [definitions, syms, List.reverse_cons, List.map_append, List.filter_append, List.map_cons, List.map_nil, List.filter_cons, List.filter_nil]
      rw [hd, collect, ih, List.map_append]
      obtain ⟨ty, nm, gen, reg, id⟩ := i
      cases ty <;> first
        | (simp [putSymbol, defines]; done)
        | (cases nm
           · exact absurd rfl (hi (by simp))
           · cases gen <;> simp [putSymbol, defines, tagOf])
    | _ => exact ih h

theorem line_tagOf {i : SymInfo} (h : i.name ≠ none) : line (tagOf i) = some (tagLine i) := by
  obtain ⟨n, hn⟩ := Option.ne_none_iff_exists'.1 h
  have hk : [(tagOf i).kind] = if i.type = .macro then str "m" else str "l" := by
    unfold tagOf
    dsimp only
    split <;> rfl
  unfold line tagLine
  rw [show (tagOf i).name = some n from hn, hn, Option.map_some, hk]
  rfl

theorem lines_tagOf {l : List SymInfo} (h : ∀ i ∈ l, i.name ≠ none) : lines (l.map tagOf) = some ((l.map tagLine).flatten) := by
  induction l with
  | nil => rfl
  | cons i l ih =>
    rw [List.map_cons, lines, line_tagOf (h i (List.mem_cons_self ..)), ih fun x hx => h x (List.mem_cons_of_mem _ hx)]
    rfl

theorem of_mem_syms {log : List Event} {a : Short} {i : SymInfo} (h : (a, i) ∈ syms log) : .sym a i ∈ log := by
  induction log with
  | nil => cases h
  | cons e l ih =>
    cases e with
    | sym b j =>
      rcases List.mem_cons.1 h with h | h
      · cases h
        exact List.mem_cons_self ..
      · exact List.mem_cons_of_mem _ (ih h)
    | _ => exact List.mem_cons_of_mem _ (ih h)

theorem definitions_named {log : List Event} {i : SymInfo} (h : i ∈ definitions log) : i.name ≠ none ∧ ∃ a, .sym a i ∈ log ∧ defines i ≠ none := by
  obtain ⟨h1, h2⟩ := List.mem_filter.1 h
  obtain ⟨⟨a, j⟩, h3, rfl⟩ := List.mem_map.1 h1
  have hn : defines j ≠ none := by
    intro e
    dsimp only at h2
    rw [e] at h2
    cases h2
  refine ⟨fun e => hn ?_, a, of_mem_syms (List.mem_reverse.1 h3), hn⟩
  unfold defines
  dsimp only at e
  rw [e]
  split <;> simp

/-- Two lists with the same elements in the same places up to a function. -/
theorem perm_map {α β : Type} (f : α → β) {l : List β} {m : List α} (h : l.Perm (m.map f)) : ∃ o : List α, o.Perm m ∧ l = o.map f := by
  generalize hk : m.map f = k at h
  induction h generalizing m with
  | nil => exact ⟨[], by rw [List.map_eq_nil_iff.1 hk], rfl⟩
  | cons x _ ih =>
    obtain ⟨a, m', rfl, rfl, e⟩ := List.map_eq_cons_iff.1 hk
    obtain ⟨o, h1, h2⟩ := ih e
    exact ⟨a :: o, h1.cons a, by rw [h2]; rfl⟩
  | swap x y l =>
    obtain ⟨a, m', rfl, rfl, e⟩ := List.map_eq_cons_iff.1 hk
    obtain ⟨b, m', rfl, rfl, rfl⟩ := List.map_eq_cons_iff.1 e
    exact ⟨b :: a :: m', .swap _ _ _, rfl⟩
  | trans _ _ ih1 ih2 =>
    obtain ⟨o, h1, rfl⟩ := ih2 hk
    obtain ⟨o', h1', h2⟩ := ih1 rfl
    exact ⟨o', h1'.trans h1, h2⟩

end Ctags

open Ctags

theorem assemble_wellNamed (files : Files) (hfiles : ∀ name st, files name = some st → ∃ raw, st = raw.map some ∧ ProperLines raw)
    (fuel : Nat) (filename : Str) (ok : Bool) (s : Asm) (h : assemble files fuel filename = some (ok, s)) : WellNamed s.log := by
  intro x hx hty
  obtain ⟨a, i⟩ := x
  obtain ⟨t, _, hs⟩ := C57_positions files hfiles fuel filename ok s h a i (of_mem_syms hx)
  obtain ⟨ty, nm, gen, reg, id⟩ := i
  rcases hty with hty | hty <;> cases hty
  · obtain ⟨_, n, e, _⟩ := hs
    exact fun h => by cases e.symm.trans h
  · obtain ⟨_, hs⟩ := hs
    cases gen
    · obtain ⟨n, e, _⟩ := hs
      exact fun h => by cases e.symm.trans h
    · obtain ⟨_, n, e⟩ := hs
      exact fun h => by cases e.symm.trans h

/-- **C59.** In whatever way the assembly ends, and however `qsort` works: if there is nothing to write because of an error, or the file cannot be created,
the exit code says so. Otherwise it is zero, and the file has a line for every macro and every label with a name of its own, sorted by name. -/
theorem C59_tags (files : Files) (hfiles : ∀ name st, files name = some st → ∃ raw, st = raw.map some ∧ ProperLines raw)
    (fuel : Nat) (filename : Str) (ok : Bool) (s : Asm) (h : assemble files fuel filename = some (ok, s))
    (qsort : List Tag → List Tag) (hq : Sorts qsort) (canOpen : Bool) :
    if (ok = false ∧ definitions s.log = []) ∨ canOpen = false then finish qsort canOpen ok (collect s.log) = some (1, none)
    else ∃ order : List SymInfo, order.Perm (definitions s.log) ∧
      finish qsort canOpen ok (collect s.log) = some (0, some (header ++ (order.map tagLine).flatten)) ∧
      order.Pairwise fun x y => cstr (x.name.getD []) = cstr (y.name.getD []) ∨ Before (cstr (x.name.getD [])) (cstr (y.name.getD [])) := by
  have hw := assemble_wellNamed files hfiles fuel filename ok s h
  rw [collect_definitions _ hw]
  have hname : ∀ t ∈ (definitions s.log).map tagOf, t.name ≠ none := by
    intro t ht
    obtain ⟨i, hi, rfl⟩ := List.mem_map.1 ht
    exact (definitions_named hi).1
  obtain ⟨h1, h2⟩ := hq _ hname
  split
  · rename_i hc
    rcases hc with ⟨rfl, hc⟩ | rfl
    · rw [hc]; rfl
    · unfold finish
      split <;> rfl
  · rename_i hc
    obtain ⟨order, ho, he⟩ := perm_map tagOf h1
    have hn : ∀ i ∈ order, i.name ≠ none := fun i hi => (definitions_named (ho.subset hi)).1
    refine ⟨order, ho, ?_, ?_⟩
    · unfold finish
      rw [if_neg, if_neg, he, lines_tagOf hn]
      · rfl
      · cases canOpen
        · exact absurd (.inr rfl) hc
        · decide
      · cases ok
        · cases hd : definitions s.log
          · exact absurd (.inl ⟨rfl, hd⟩) hc
          · simp
        · simp
    · rw [he, List.pairwise_map] at h2
      refine List.Pairwise.imp_of_mem ?_ h2
      intro x y hx hy hxy
      obtain ⟨n, hn1⟩ := Option.ne_none_iff_exists'.1 (hn x hx)
      obtain ⟨m, hm1⟩ := Option.ne_none_iff_exists'.1 (hn y hy)
      have := hxy (strcmp n m) (by simp [sortTag, tagOf, hn1, hm1])
      rw [hn1, hm1]
      exact (strcmp_cstr n m).1 this

theorem defined_definitions (log : List Event) : defined log = ((definitions log).map fun i => (defines i).getD []).reverse := by
  induction log with
  | nil => rfl
  | cons e l ih =>
    cases e with
    | sym a i =>
      have hd : definitions (.sym a i :: l) = definitions l ++ (if (defines i).isSome then [i] else []) := by
        simp only [definitions, syms, List.reverse_cons, List.map_append, List.filter_append, List.map_cons, List.map_nil, List.filter_cons, List.filter_nil]
      rw [hd, defined, syms, List.filterMap_cons]
      dsimp only
      cases he : defines i with
      | none => simpa [defined] using ih
      | some n =>
        rw [defined] at ih
        simp [ih, he]
    | _ => exact ih

theorem defines_name {i : SymInfo} (h : defines i ≠ none) : defines i = i.name := by
  unfold defines at *
  split
  · rfl
  · rename_i ht
    rw [ht] at h
    dsimp only at h
    split
    · rename_i hg
      rw [if_pos hg] at h
      exact absurd rfl h
    · rfl
  · rename_i h1 h2
    split at h
    · rename_i e; exact absurd e h1
    · rename_i e; exact absurd e h2
    · exact absurd rfl h

theorem name_defined {log : List Event} {i : SymInfo} (h : i ∈ definitions log) : i.name.getD [] ∈ defined log := by
  rw [defined_definitions, List.mem_reverse]
  refine List.mem_map.2 ⟨i, h, ?_⟩
  obtain ⟨_, _, _, hd⟩ := definitions_named h
  rw [defines_name hd]

/-- **C59.** Where names contain no zero byte, no two lines are for the same name: the names increase from line to line. -/
theorem C59_increasing (files : Files) (hfiles : ∀ name st, files name = some st → ∃ raw, st = raw.map some ∧ ProperLines raw)
    (fuel : Nat) (filename : Str) (ok : Bool) (s : Asm) (h : assemble files fuel filename = some (ok, s))
    (hz : ∀ name ∈ defined s.log, (0 : Byte) ∉ name) (order : List SymInfo) (ho : order.Perm (definitions s.log))
    (hs : order.Pairwise fun x y => cstr (x.name.getD []) = cstr (y.name.getD []) ∨ Before (cstr (x.name.getD [])) (cstr (y.name.getD []))) :
    order.Pairwise fun x y => Before (x.name.getD []) (y.name.getD []) := by
  have hn : (order.map fun i => i.name.getD []).Nodup := by
    have h1 := C57_names_once files hfiles fuel filename ok s h
    rw [defined_definitions, List.nodup_reverse] at h1
    have e : ((definitions s.log).map fun i => (defines i).getD []) = (definitions s.log).map fun i => i.name.getD [] :=
      List.map_congr_left fun i hi => by
        obtain ⟨_, _, _, hd⟩ := definitions_named hi
        rw [defines_name hd]
    rw [e] at h1
    exact (ho.map _).nodup_iff.2 h1
  have hc : ∀ i ∈ order, cstr (i.name.getD []) = i.name.getD [] := fun i hi => by
    have h0 := hz _ (name_defined (ho.subset hi))
    generalize i.name.getD [] = n at h0
    induction n with
    | nil => rfl
    | cons c n ih =>
      simp only [List.mem_cons, not_or] at h0
      rw [cstr_cons, if_neg (Ne.symm h0.1), ih h0.2]
  rw [List.Nodup, List.pairwise_map] at hn
  refine List.Pairwise.imp_of_mem ?_ (hn.and hs)
  rintro x y hx hy ⟨h1, h2⟩
  rw [hc x hx, hc y hy] at h2
  exact h2.resolve_left h1

/-- **C59.** Where names contain no zero byte, the file does not depend on how `qsort` works. -/
theorem C59_determined (files : Files) (hfiles : ∀ name st, files name = some st → ∃ raw, st = raw.map some ∧ ProperLines raw)
    (fuel : Nat) (filename : Str) (ok : Bool) (s : Asm) (h : assemble files fuel filename = some (ok, s))
    (hz : ∀ name ∈ defined s.log, (0 : Byte) ∉ name)
    (qsort qsort' : List Tag → List Tag) (hq : Sorts qsort) (hq' : Sorts qsort') (canOpen : Bool) :
    finish qsort canOpen ok (collect s.log) = finish qsort' canOpen ok (collect s.log) := by
  have h1 := C59_tags files hfiles fuel filename ok s h qsort hq canOpen
  have h2 := C59_tags files hfiles fuel filename ok s h qsort' hq' canOpen
  split at h1
  · rename_i hc
    rw [if_pos hc] at h2
    exact h1.trans h2.symm
  · rename_i hc
    rw [if_neg hc] at h2
    obtain ⟨o, p, e, r⟩ := h1
    obtain ⟨o', p', e', r'⟩ := h2
    have k := C59_increasing files hfiles fuel filename ok s h hz o p r
    have k' := C59_increasing files hfiles fuel filename ok s h hz o' p' r'
    have : o = o' := List.Perm.eq_of_pairwise (fun a b _ _ ha hb => (before_asymm ha hb).elim) k k' (p.trans p'.symm)
    rw [e, e', this]

/-- **C59.** Files without CR: at the position in a line of the file is the definition, its rune and name; or the word in a macro body that became it. -/
theorem C59_positions_partial (files : Files) (hfiles : ∀ name st, files name = some st → ∃ raw : Str, st = raw.map some ∧ CR ∉ raw)
    (fuel : Nat) (filename : Str) (ok : Bool) (s : Asm) (h : assemble files fuel filename = some (ok, s)) (i : SymInfo) (hi : i ∈ definitions s.log) :
    ∃ (raw text name : Str), i.name = some name ∧ files (cstr i.region.file) = some (raw.map some) ∧ text ≠ [] ∧ text <+: raw.drop i.region.start.byte ∧
      (ch '^' ∈ text ∨ text = ch '%' :: name ∨ text = ch '@' :: name ∨ ∃ scope x, text = ch '&' :: x ∧ name = scope ++ ch '/' :: x) := by
  obtain ⟨_, a, h1, h2⟩ := definitions_named hi
  obtain ⟨name, hn⟩ := Option.ne_none_iff_exists'.1 h2
  obtain ⟨raw, text, e1, e2, e3, e4⟩ := C57_definitions_partial files hfiles fuel filename ok s h a i name h1 hn
  refine ⟨raw, text, name, by rw [← defines_name h2]; exact hn, e1, ?_, ?_, e4⟩
  · rcases e4 with e | e | e | ⟨_, _, e, _⟩
    · exact List.ne_nil_of_mem e
    all_goals rw [e]; simp
  · rw [e3]
    exact List.take_prefix _ _

/-- **C59.** The arguments: one program, and perhaps the name of the output, in any order. -/
theorem C59_arguments (input value : Str) (h1 : ¬ str "--help" <+: input) (h2 : ¬ str "-output=" <+: input) :
    arguments [input] none none = .tag input (str "tags") ∧
    arguments [input, str "-output=" ++ value] none none = .tag input value ∧
    arguments [str "-output=" ++ value, input] none none = .tag input value := by
  have e1 : parseFlag input (str "--help") = none := by
    unfold parseFlag
    rw [if_neg]
    simpa [List.isPrefixOf_iff_prefix] using h1
  have e2 : parseFlag input (str "-output=") = none := by
    unfold parseFlag
    rw [if_neg]
    simpa [List.isPrefixOf_iff_prefix] using h2
  have e3 : parseFlag (str "-output=" ++ value) (str "--help") = none := by
    unfold parseFlag
    rw [if_neg]
    intro h
    have := List.isPrefixOf_iff_prefix.1 h
    obtain ⟨r, hr⟩ := this
    have := congrArg (fun l => l.drop 1 |>.head?) hr
    simp [str] at this
    revert this
    decide
  have e4 : parseFlag (str "-output=" ++ value) (str "-output=") = some value := by
    unfold parseFlag
    rw [if_pos (List.isPrefixOf_iff_prefix.2 (List.prefix_append _ _)), List.drop_left]
  simp only [arguments, e1, e2, e3, e4, Option.getD]
  exact ⟨trivial, trivial, trivial⟩

/-- Insertion sort does what `qsort` promises, so that there is something to promise. -/
def insertTag (t : Tag) : List Tag → List Tag
  | [] => [t]
  | x :: l => if (sortTag t x).getD 0 ≤ 0 then t :: x :: l else x :: insertTag t l

theorem insertTag_perm (t : Tag) (l : List Tag) : (insertTag t l).Perm (t :: l) := by
  induction l with
  | nil => exact .refl _
  | cons x l ih =>
    unfold insertTag
    split
    · exact .refl _
    · exact (ih.cons x).trans (.swap _ _ _)

theorem strcmp_trans {x y z : Str} (h : strcmp x y ≤ 0) (h' : strcmp y z ≤ 0) : strcmp x z ≤ 0 := by
  rw [strcmp_cstr] at *
  rcases h with h | h
  · rw [h]; exact h'
  · rcases h' with h' | h'
    · rw [← h']; exact .inr h
    · exact .inr (before_trans h h')

theorem strcmp_total {x y : Str} (h : ¬ strcmp x y ≤ 0) : strcmp y x ≤ 0 := by
  rw [strcmp_cstr] at *
  rw [not_or] at h
  rcases before_total (cstr x) (cstr y) with e | e | e
  · exact absurd e h.1
  · exact absurd e h.2
  · exact .inr e

theorem insertion_sorts : Sorts (List.foldr insertTag []) := by
  intro l
  induction l with
  | nil => exact fun _ => ⟨.refl _, .nil⟩
  | cons t l ih =>
    intro hn
    obtain ⟨h1, h2⟩ := ih fun x hx => hn x (List.mem_cons_of_mem _ hx)
    have hk : ∀ x ∈ List.foldr insertTag [] l, x.name ≠ none := fun x hx => hn x (List.mem_cons_of_mem _ (h1.subset hx))
    have ht := hn t (List.mem_cons_self ..)
    rw [List.foldr_cons]
    refine ⟨(insertTag_perm _ _).trans (h1.cons t), ?_⟩
    generalize List.foldr insertTag [] l = m at h2 hk
    clear h1 ih hn
    obtain ⟨nt, hnt⟩ := Option.ne_none_iff_exists'.1 ht
    induction m with
    | nil => exact List.pairwise_singleton _ _
    | cons x m ihm =>
      obtain ⟨nx, hnx⟩ := Option.ne_none_iff_exists'.1 (hk x (List.mem_cons_self ..))
      rw [List.pairwise_cons] at h2
      unfold insertTag
      have e : sortTag t x = some (strcmp nt nx) := by simp [sortTag, hnt, hnx]
      rw [e, Option.getD_some]
      split
      · rename_i hle
        rw [List.pairwise_cons]
        refine ⟨fun y hy v hv => ?_, List.pairwise_cons.2 h2⟩
        obtain ⟨ny, hny⟩ := Option.ne_none_iff_exists'.1 (hk y hy)
        have ev : v = strcmp nt ny := by simp [sortTag, hnt, hny] at hv; exact hv.symm
        rw [ev]
        rcases List.mem_cons.1 hy with rfl | hy
        · rw [hnx] at hny
          cases hny
          exact hle
        · exact strcmp_trans hle (h2.1 y hy _ (by simp [sortTag, hnx, hny]))
      · rename_i hle
        rw [List.pairwise_cons]
        refine ⟨fun y hy v hv => ?_, ihm h2.2 fun z hz => hk z (List.mem_cons_of_mem _ hz)⟩
        rcases List.mem_cons.1 ((insertTag_perm t m).subset hy) with rfl | hy
        · have ev : v = strcmp nx nt := by simp [sortTag, hnt, hnx] at hv; exact hv.symm
          rw [ev]
          exact strcmp_total hle
        · exact h2.1 y hy v hv

/-- Two labels, in the order of their names. -/
example : (assemble (filesOf [("m", "@yy @xx")]) 60 (str "m")).bind (fun r => finish (List.foldr insertTag []) true r.1 (collect r.2.log)) =
    some (0, some (str "!_TAG_FILE_SORTED\t1\tbuxn-ctags\nxx\tm\tgo 5|;\"\tl\nyy\tm\tgo 1|;\"\tl\n")) := by decide +kernel

end Buxn.Asm
