import Verif.VM.Mimics
import Verif.Gui.WholeProps
import Verif.Misc.Memory
/-!
# C92: a console program does the same in a window

`buxn-gui` has the devices of `buxn-cli` and some more. A program that does not ask the screen, the sounds, the keyboard or the mouse for anything does the same with both.
-/
namespace Buxn.Gui.Whole
open Buxn.VM Buxn.Input Buxn.Cli
variable {τ : Type}

/-! ## Specification -/

/-- What the console of `buxn-cli` was given to print by the program, without the stacks that it prints for a debugging request: `buxn-gui` does not print them
(`gui.c:298-303`). -/
def heard (out : List Out) : List (Text.Level × Byte) :=
  out.filterMap fun
    | .stdout b => some (.info, b)
    | .stderr b => some (.error, b)
    | .dump .. => none

/-- The two programs have done the same: the same files are open and hold the same, the same calls were made to the file system, the clock was
read as often, and the same bytes were printed. -/
structure SameWork (g : Data τ) (c : Cli.Data τ) : Prop where
  file : c.file = g.core.file
  log : c.log = g.core.log
  fs : c.fs = g.core.fs
  clock : c.clock = g.core.clock
  printed : heard c.out = g.printed

/-- A port that belongs to the window: the screen, the sounds, the keyboard or the mouse. -/
def OfWindow (a : Byte) : Prop := deviceId a = 0x20 ∨ isAudio (deviceId a) = true ∨ deviceId a = 0x80 ∨ deviceId a = 0x90

instance (a : Byte) : Decidable (OfWindow a) := by unfold OfWindow; infer_instance

/-- The devices of `buxn-gui`, but reading a port of the window is refused, with the error `arith`. -/
def windowless (F : File.Host τ) (S : Sounds) (dev : Devices) : Host (Data τ) where
  dei a vm d := if OfWindow a then .error .arith else (host F S dev).dei a vm d
  deo := (host F S dev).deo

/-! ## Proofs -/

theorem windowless_guards (F : File.Host τ) (S : Sounds) (dev : Devices) : Guards .arith (windowless F S dev) (host F S dev) where
  dei a vm d := by
    show SameOr _ (if _ then _ else _) _
    split
    · exact .inr rfl
    · exact .inl rfl
  deo a vm d := .inl rfl

theorem windowless_keeps (F : File.Host τ) (S : Sounds) (dev : Devices) : Buxn.VM.Spec.KeepsMemSize (windowless F S dev) where
  dei a vm d v vm' d' h := by
    rcases (windowless_guards F S dev).dei a vm d with e | e
    · exact (host_keeps F S dev).dei _ _ _ _ _ _ (e.symm.trans h)
    · rw [e] at h; cases h
  deo a vm d vm' d' h := (host_keeps F S dev).deo _ _ _ _ _ h

theorem setTitle_mem {mem mem' : Nat → Byte} {cap : Nat} {m : Metadata.Meta} {t : List Byte} (h : Title.setTitle mem cap m = .ok (t, mem')) : mem' = mem := by
  unfold Title.setTitle at h
  cases h1 : Title.lineEnd mem cap m.contentLen m.content with
  | error u => rw [h1] at h; cases h
  | ok x =>
    rw [h1] at h
    simp only [bind, Except.bind, pure, Except.pure] at h
    cases h2 : Metadata.rd mem cap x with
    | error u => rw [h2] at h; cases h
    | ok old =>
      rw [h2] at h
      dsimp only at h
      have ho : mem x = old := by
        unfold Metadata.rd at h2
        split at h2
        · cases h2; rfl
        · cases h2
      have w : ∀ (f : Nat → Byte) (c : Byte), Title.wr f cap x c = if x < cap then .ok (fun j => if j = x then c else f j) else .error .oob := fun _ _ => rfl
      by_cases hx : x < cap
      · simp only [w, if_pos hx] at h
        split at h
        · cases h
        · cases h
          funext j
          split
          · rename_i e; rw [e, ho]
          · rfl
      · simp only [w, if_neg hx] at h
        cases h

theorem apply_mem {mem : Nat → Byte} {cap : Nat} {m : Metadata.Meta} {y : List Title.Effect × (Nat → Byte)} (ha : Title.apply mem cap m = .ok y) : y.2 = mem := by
  unfold Title.apply at ha
  cases ht : Title.setTitle mem cap m with
  | error u => rw [ht] at ha; cases ha
  | ok z =>
    rw [ht] at ha
    obtain ⟨t, mem1⟩ := z
    have := setTitle_mem ht
    subst this
    change (Title.extensions mem1 cap m m.num.toNat 0 >>= fun x => _) = _ at ha
    cases hx : Title.extensions mem1 cap m m.num.toNat 0 with
    | error u => rw [hx] at ha; cases ha
    | ok w => rw [hx] at ha; cases ha; rfl

theorem setMetadata_vm {vm vm' : VM} {a : Short} {es : List Title.Effect} (h : Title.setMetadata vm a = .ok (es, vm')) : vm' = vm := by
  unfold Title.setMetadata at h
  cases hf : Metadata.fromMemory vm a with
  | error u => rw [hf] at h; cases h
  | ok x =>
    rw [hf] at h
    cases x with
    | none => cases h; rfl
    | some m =>
      change (Title.apply vm.memory vm.memSize m >>= fun x => _) = _ at h
      cases ha : Title.apply vm.memory vm.memSize m with
      | error u => rw [ha] at h; cases h
      | ok y =>
        rw [ha] at h
        have hy := apply_mem ha
        cases h
        rw [hy]

theorem fileDeo_same (F : File.Host τ) (second : Bool) (id a : Byte) (vm : VM) (d : Data τ) (c : Cli.Data τ) (h : SameWork d c) {vm' : VM} {e : Cli.Data τ}
    (he : Cli.fileDeo F second id a vm d.core = .ok (vm', e)) : ∃ c', Cli.fileDeo F second id a vm c = .ok (vm', c') ∧ SameWork { d with core := e } c' := by
  unfold Cli.fileDeo at he ⊢
  rw [h.file, h.log, h.fs]
  cases hx : File.deo F vm.memSize (ports vm id) (devicePort a) { dev := d.core.file second, mem := vm.memory, host := d.core.fs, log := d.core.log second } with
  | error u => rw [hx] at he; cases he
  | ok w =>
    rw [hx] at he
    cases he
    exact ⟨_, rfl, rfl, rfl, rfl, h.clock, h.printed⟩

theorem same_dei (F : File.Host τ) (S : Sounds) (dev : Devices) (a : Byte) (vm : VM) (d : Data τ) (c : Cli.Data τ) (h : SameWork d c) (v : Byte) (vm' : VM) (d' : Data τ)
    (he : (windowless F S dev).dei a vm d = .ok (v, vm', d')) : ∃ c', (Cli.host F dev.console).dei a vm c = .ok (v, vm', c') ∧ SameWork d' c' := by
  change (if OfWindow a then .error .arith else dei S dev a vm d) = _ at he
  show ∃ c', Cli.dei dev.console a vm c = .ok (v, vm', c') ∧ SameWork d' c'
  by_cases hw : OfWindow a
  · rw [if_pos hw] at he; cases he
  rw [if_neg hw] at he
  unfold dei at he
  unfold Cli.dei
  dsimp only at he ⊢
  have n2 : ¬ deviceId a = 0x20 := fun e => hw (.inl e)
  have n3 : ¬ isAudio (deviceId a) = true := fun e => hw (.inr (.inl e))
  have n8 : ¬ deviceId a = 0x80 := fun e => hw (.inr (.inr (.inl e)))
  have n9 : ¬ deviceId a = 0x90 := fun e => hw (.inr (.inr (.inr e)))
  by_cases h0 : deviceId a = 0x00
  · rw [if_pos h0] at he ⊢
    cases he
    exact ⟨c, rfl, h⟩
  rw [if_neg h0] at he ⊢
  by_cases h1 : deviceId a = 0x10
  · rw [if_pos h1] at he ⊢
    cases he
    exact ⟨c, rfl, h⟩
  rw [if_neg h1, if_neg n2, if_neg n3, if_neg n9, if_neg n8] at he
  rw [if_neg h1]
  by_cases hc : deviceId a = 0xc0
  · have na : ¬ deviceId a = 0xa0 := by rw [hc]; decide
    have nb : ¬ deviceId a = 0xb0 := by rw [hc]; decide
    rw [if_neg na, if_neg nb, if_pos hc] at he
    rw [if_pos hc, h.clock]
    cases hx : Datetime.dei (d.core.clock.reading d.core.clock.calls) vm a with
    | error u => rw [hx] at he; cases he
    | ok x =>
      rw [hx] at he
      cases he
      exact ⟨_, rfl, h.file, h.log, h.fs, rfl, h.printed⟩
  rw [if_neg hc]
  by_cases ha : deviceId a = 0xa0
  · rw [if_pos ha] at he ⊢
    cases he
    exact ⟨c, by rw [h.file], h⟩
  rw [if_neg ha] at he ⊢
  by_cases hb : deviceId a = 0xb0
  · rw [if_pos hb] at he ⊢
    cases he
    exact ⟨c, by rw [h.file], h⟩
  rw [if_neg hb, if_neg hc] at he
  rw [if_neg hb]
  cases he
  exact ⟨c, rfl, h⟩

/-- A byte on one of the streams. -/
def out (l : Text.Level) (b : Byte) : Out := match l with | .info => .stdout b | .error => .stderr b

theorem print_same {l : Text.Level} {b : Byte} {vm vm' : VM} {d d' : Data τ} {c : Cli.Data τ} (h : SameWork d c) (he : print l b vm d = .ok (vm', d')) :
    vm' = vm ∧ SameWork d' { c with out := c.out ++ [out l b] } := by
  unfold print at he
  cases hx : Text.write l b d.con with
  | error u => rw [hx] at he; cases he
  | ok con =>
    rw [hx] at he
    cases he
    refine ⟨rfl, h.file, h.log, h.fs, h.clock, ?_⟩
    show heard (c.out ++ _) = d.printed ++ [(l, b)]
    rw [← h.printed]
    unfold heard
    rw [List.filterMap_append]
    cases l <;> rfl

theorem same_deo (F : File.Host τ) (S : Sounds) (dev : Devices) (a : Byte) (vm : VM) (d : Data τ) (c : Cli.Data τ) (h : SameWork d c) (vm' : VM) (d' : Data τ)
    (he : (windowless F S dev).deo a vm d = .ok (vm', d')) : ∃ c', (Cli.host F dev.console).deo a vm c = .ok (vm', c') ∧ SameWork d' c' := by
  change deo F dev a vm d = _ at he
  show ∃ c', Cli.deo F dev.console a vm c = .ok (vm', c') ∧ SameWork d' c'
  unfold deo at he
  unfold Cli.deo
  dsimp only at he ⊢
  by_cases h0 : deviceId a = 0x00
  · rw [if_pos h0] at he ⊢
    unfold System.deo at he ⊢
    by_cases s3 : a = 0x03
    · rw [if_pos s3] at he ⊢
      cases hx : System.expansion vm with
      | error u => rw [hx] at he; cases he
      | ok x => rw [hx] at he; cases he; exact ⟨c, rfl, h⟩
    rw [if_neg s3] at he ⊢
    by_cases s4 : a = 0x04
    · rw [if_pos s4] at he ⊢; cases he; exact ⟨c, rfl, h⟩
    rw [if_neg s4] at he ⊢
    by_cases s5 : a = 0x05
    · rw [if_pos s5] at he ⊢; cases he; exact ⟨c, rfl, h⟩
    rw [if_neg s5] at he ⊢
    by_cases s7 : a = 0x07
    · rw [if_pos s7] at he ⊢
      change Except.map _ (Title.setMetadata vm (vm.devLoad2 0x06)) = _ at he
      cases hx : Title.setMetadata vm (vm.devLoad2 0x06) with
      | error u => rw [hx] at he; cases he
      | ok x =>
        rw [hx] at he
        obtain ⟨es, vm1⟩ := x
        have := setMetadata_vm hx
        subst this
        cases he
        exact ⟨c, rfl, h.file, h.log, h.fs, h.clock, h.printed⟩
    rw [if_neg s7] at he ⊢
    by_cases s9 : a = 0x09 ∨ a = 0x0b ∨ a = 0x0d
    · rw [if_pos s9] at he ⊢
      cases he
      exact ⟨c, rfl, h.file, h.log, h.fs, h.clock, h.printed⟩
    rw [if_neg s9] at he ⊢
    by_cases se : a = 0x0e
    · rw [if_pos se] at he ⊢
      by_cases sz : vm.device a ≠ 0
      · rw [if_pos sz] at he ⊢
        cases he
        refine ⟨_, rfl, ?_⟩
        rw [if_neg sz]
        refine ⟨h.file, h.log, h.fs, h.clock, ?_⟩
        show heard (c.out ++ _) = d.printed
        rw [← h.printed]
        unfold heard
        rw [List.filterMap_append]
        exact List.append_nil _
      · rw [if_neg sz] at he ⊢
        cases he
        exact ⟨c, rfl, h⟩
    rw [if_neg se] at he ⊢
    cases he
    exact ⟨c, rfl, h⟩
  rw [if_neg h0] at he ⊢
  by_cases h1 : deviceId a = 0x10
  · rw [if_pos h1] at he ⊢
    cases hx : consoleDeo { vm := vm, dev := dev.console, rest := () } a with
    | none => rw [hx] at he; cases he; exact ⟨c, rfl, h⟩
    | some x =>
      rw [hx] at he
      obtain ⟨k, b⟩ := x
      cases k
      · obtain ⟨rfl, r⟩ := print_same h he
        exact ⟨_, rfl, r⟩
      · obtain ⟨rfl, r⟩ := print_same h he
        exact ⟨_, rfl, r⟩
  rw [if_neg h1] at he ⊢
  by_cases h2 : deviceId a = 0x20
  · have na : ¬ deviceId a = 0xa0 := by rw [h2]; decide
    have nb : ¬ deviceId a = 0xb0 := by rw [h2]; decide
    rw [if_pos h2] at he
    rw [if_neg na, if_neg nb]
    cases hx : Screen.deo vm d.gui a with
    | error u => rw [hx] at he; cases he
    | ok x => rw [hx] at he; cases he; exact ⟨c, rfl, h.file, h.log, h.fs, h.clock, h.printed⟩
  rw [if_neg h2] at he
  by_cases h3 : isAudio (deviceId a) = true
  · have na : ¬ deviceId a = 0xa0 := fun e => by rw [e] at h3; exact absurd h3 (by decide)
    have nb : ¬ deviceId a = 0xb0 := fun e => by rw [e] at h3; exact absurd h3 (by decide)
    rw [if_pos h3] at he
    rw [if_neg na, if_neg nb]
    cases hx : Audio.deo (ports vm (deviceId a)) (devicePort a) with
    | none => rw [hx] at he; cases he; exact ⟨c, rfl, h⟩
    | some x => rw [hx] at he; cases he; exact ⟨c, rfl, h.file, h.log, h.fs, h.clock, h.printed⟩
  rw [if_neg h3] at he
  by_cases ha : deviceId a = 0xa0
  · rw [if_pos ha] at he ⊢
    cases hx : Cli.fileDeo F false (deviceId a) a vm d.core with
    | error u => rw [hx] at he; cases he
    | ok x => rw [hx] at he; cases he; exact fileDeo_same F false _ a vm d c h hx
  rw [if_neg ha] at he ⊢
  by_cases hb : deviceId a = 0xb0
  · rw [if_pos hb] at he ⊢
    cases hx : Cli.fileDeo F true (deviceId a) a vm d.core with
    | error u => rw [hx] at he; cases he
    | ok x => rw [hx] at he; cases he; exact fileDeo_same F true _ a vm d c h hx
  rw [if_neg hb] at he ⊢
  cases he
  exact ⟨c, rfl, h⟩

theorem same_devices (F : File.Host τ) (S : Sounds) (dev : Devices) : Mimics SameWork (windowless F S dev) (Cli.host F dev.console) where
  dei a vm d c h v vm' d' he := same_dei F S dev a vm d c h v vm' d' he
  deo a vm d c h vm' d' he := same_deo F S dev a vm d c h vm' d' he

/-- **C92.** A vector of a program runs in `buxn-gui`, is not undefined, and reads no port of the window. Then the same vector runs in `buxn-cli` in the same way: it is
at the same instruction after any number of instructions, or has come to its end; with the same machine, files and clock, and with the same bytes printed. -/
theorem C92_same_in_console (F : File.Host τ) (S : Sounds) (dev : Devices) (cfg : Cfg) (k0 k0' : Byte × Byte) (n : Nat) (vm : VM) (hm : 65536 ≤ vm.memSize)
    (d : Data τ) (c : Cli.Data τ) (h : SameWork d c) (pc : Short)
    (hd : ∀ u, (execute cfg (windowless F S dev) none k0 n vm d pc).view ≠ .undefined u) :
    Follows SameWork (execute cfg (host F S dev) none k0 n vm d pc).view (execute cfg (Cli.host F dev.console) none k0' n vm c pc).view := by
  have e := ((windowless_guards F S dev).execute (cfg := cfg) (windowless_keeps F S dev) (host_keeps F S dev) k0 n vm hm d pc).resolve_right (hd _)
  rw [← e]
  exact (same_devices F S dev).execute (windowless_keeps F S dev) (Cli.host_keeps F dev.console) k0 k0' n vm hm d c h pc hd

end Buxn.Gui.Whole
