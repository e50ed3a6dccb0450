import Verif.Gui.Whole
/-!
# The devices of `buxn-gui` keep their invariant (C77)
-/
namespace Buxn.Gui.Whole
open Buxn.VM Buxn.VM.Spec Buxn.Input Buxn.Boot Buxn.Bembd
open Buxn.Cli (deviceId devicePort ports Stop Respects)
variable {τ : Type}

/-- The colours as the drawing code uses them. -/
def table (p : Fin 4 → BitVec 32) : Nat → Nat := fun c => if h : c < 4 then (p ⟨c, h⟩).toNat else 0

theorem colors_table (vm : VM) : Screen.colors vm = table (System.palette vm) := rfl

/-- The invariant of the devices, on a machine with `m` bytes of memory. -/
structure DataOk (R : (Bool → File.Slot) → τ → Prop) (m : Nat) (d : Data τ) : Prop where
  core : Cli.InvR R m d.core
  con : Text.writes d.printed Text.start = .ok d.con
  scr : Screen.Inv ⟨d.gui, table d.colors⟩
  audio : ∀ i, Audio.Inv (d.audio i)

variable {R : (Bool → File.Slot) → τ → Prop}

theorem writes_append (ws ws' : List (Text.Level × Byte)) (s : Text.Con) :
    Text.writes (ws ++ ws') s = (Text.writes ws s) >>= Text.writes ws' := by
  induction ws generalizing s with
  | nil => rfl
  | cons w ws ih =>
    obtain ⟨l, c⟩ := w
    show (Text.write l c s >>= fun s => Text.writes (ws ++ ws') s) = ((Text.write l c s >>= fun s => Text.writes ws s) >>= Text.writes ws')
    cases Text.write l c s with
    | error u => rfl
    | ok s1 => exact ih s1

theorem print_ok (l : Text.Level) (c : Byte) (vm : VM) (d : Data τ) (h : DataOk R vm.memSize d) :
    ∃ d', print l c vm d = .ok (vm, d') ∧ DataOk R vm.memSize d' := by
  obtain ⟨s, e, -⟩ := Text.C67_messages (d.printed ++ [(l, c)])
  have e0 := e
  rw [writes_append, h.con] at e
  have e' : (Text.write l c d.con >>= fun s => Text.writes [] s) = .ok s := e
  cases hw : Text.write l c d.con with
  | error u => rw [hw] at e'; cases e'
  | ok s1 =>
    rw [hw] at e'
    have : s1 = s := Except.ok.inj e'
    subst this
    refine ⟨{ d with con := s1, printed := d.printed ++ [(l, c)] }, ?_, ⟨h.core, e0, h.scr, h.audio⟩⟩
    unfold print
    rw [hw]
    rfl

theorem setMetadata_ok (vm : VM) (address : Short) (hm : 65536 ≤ vm.memSize) :
    ∃ es, Title.setMetadata vm address = .ok (es, vm) := by
  rcases Title.C68_any_memory vm address hm with ⟨h, -⟩ | ⟨m, -, h⟩
  · exact ⟨_, h⟩
  · exact ⟨_, h⟩

theorem theme_ok (vm : VM) (d : Data τ) (h : Screen.Inv ⟨d.gui, table d.colors⟩) :
    Screen.Inv ⟨Screen.forceRefresh d.gui, table (System.palette vm)⟩ := by
  obtain ⟨w', e, hi, -⟩ := Screen.step_ok h (.theme vm [0x09]) (.inr (.inl (by decide)))
  have := Except.ok.inj e
  rw [← this] at hi
  exact hi

theorem system_deo (a : Byte) (vm : VM) (d : Data τ) (h : DataOk R vm.memSize d) :
    ∃ vm' d', System.deo callbacks a vm d = .ok (vm', d') ∧ vm'.memSize = vm.memSize ∧ DataOk R vm.memSize d' := by
  have hs := h.core.size
  by_cases h3 : a = 0x03
  · subst h3
    obtain ⟨vm', h1, h2⟩ := System.C11_in_bounds (callbacks (τ := τ)) vm d hs.1 hs.2
    exact ⟨vm', d, h1, h2, h⟩
  unfold System.deo
  rw [if_neg h3]
  split
  · exact ⟨_, _, rfl, rfl, h⟩
  split
  · exact ⟨_, _, rfl, rfl, h⟩
  split
  · obtain ⟨es, e⟩ := setMetadata_ok vm (vm.devLoad2 0x06) (by omega)
    refine ⟨vm, { d with told := d.told ++ es }, ?_, rfl, ⟨h.core, h.con, h.scr, h.audio⟩⟩
    show (Title.setMetadata vm (vm.devLoad2 0x06)).map _ = _
    rw [e]
    rfl
  split
  · exact ⟨vm, _, rfl, rfl, ⟨h.core, h.con, theme_ok vm d h.scr, h.audio⟩⟩
  split
  · split
    · exact ⟨vm, d, rfl, rfl, h⟩
    · exact ⟨_, _, rfl, rfl, h⟩
  · exact ⟨_, _, rfl, rfl, h⟩

theorem screen_deo (a : Byte) (vm : VM) (d : Data τ) (h : DataOk R vm.memSize d) (hw : WriteOk vm d.gui a) :
    ∃ g, Screen.deo vm d.gui a = .ok g ∧ DataOk R vm.memSize { d with gui := g } := by
  obtain ⟨w', e, hi, -⟩ := Screen.step_ok h.scr (.deo vm a) hw
  have e' : (Screen.deo vm d.gui a >>= fun g => pure (⟨g, table d.colors⟩ : Screen.World)) = .ok w' := e
  cases hd : Screen.deo vm d.gui a with
  | error u => rw [hd] at e'; cases e'
  | ok g =>
    rw [hd] at e'
    have := Except.ok.inj e'
    rw [← this] at hi
    exact ⟨g, rfl, ⟨h.core, h.con, hi, h.audio⟩⟩

theorem screen_dei (a : Byte) (vm : VM) (d : Data τ) (h : DataOk R vm.memSize d) (hr : ReadOk vm) :
    DataOk R vm.memSize { d with gui := (Screen.dei vm d.gui a).2 } := by
  obtain ⟨w', e, hi, -⟩ := Screen.step_ok h.scr (.dei vm a) hr
  have := Except.ok.inj e
  rw [← this] at hi
  exact ⟨h.core, h.con, hi, h.audio⟩

theorem audio_dei (S : Sounds) (id a : Byte) (vm : VM) (d : Data τ) (h : DataOk R vm.memSize d) :
    ∃ v vm' d', audioDei S id a vm d = .ok (v, vm', d') ∧ vm'.memSize = vm.memSize ∧ DataOk R vm.memSize d' := by
  have hs := h.core.size
  obtain ⟨c, fs, e1, h1, -⟩ := Audio.history_ok vm.memSize (by omega) (S d.reads) (d.audio (channel id)) (h.audio _)
  obtain ⟨v, p, c', e2, h2⟩ := Audio.dei_ok (ports vm id) (devicePort a) c h1
  have h3 : Audio.Inv c' := by
    rcases h2 with rfl | rfl
    exacts [h1, Audio.inv_advance0 h1]
  refine ⟨v, setPorts vm id p, { d with audio := upd d.audio (channel id) c', reads := d.reads + 1 }, ?_, rfl, ⟨h.core, h.con, h.scr, ?_⟩⟩
  · unfold audioDei
    rw [e1]
    show (Audio.dei (ports vm id) (devicePort a) c >>= _) = _
    rw [e2]
    rfl
  · intro i
    by_cases hi : i = channel id
    · subst hi; dsimp only; rw [upd_same]; exact h3
    · dsimp only; rw [upd_other _ _ hi]; exact h.audio i

theorem pass {c : Prop} [Decidable c] {α : Type} {x y : α} {P : α → Prop} (h1 : c → P x) (h2 : ¬ c → P y) : P (if c then x else y) := by
  by_cases hc : c
  · rw [if_pos hc]; exact h1 hc
  · rw [if_neg hc]; exact h2 hc

theorem dei_ok (S : Sounds) (dev : Devices) (a : Byte) (vm : VM) (d : Data τ) (h : DataOk R vm.memSize d)
    (hr : deviceId a = 0x20 → ReadOk vm) :
    ∃ v vm' d', dei S dev a vm d = .ok (v, vm', d') ∧ vm'.memSize = vm.memSize ∧ DataOk R vm.memSize d' := by
  let P : Res (Byte × VM × Data τ) → Prop := fun r =>
    ∃ v vm' d', r = .ok (v, vm', d') ∧ vm'.memSize = vm.memSize ∧ DataOk R vm.memSize d'
  show P (dei S dev a vm d)
  unfold dei
  dsimp only
  refine pass (fun _ => ⟨_, _, _, rfl, rfl, h⟩) fun _ => ?_
  refine pass (fun _ => ⟨_, _, _, rfl, rfl, h⟩) fun _ => ?_
  refine pass (fun e => ⟨_, _, _, rfl, rfl, screen_dei a vm d h (hr e)⟩) fun _ => ?_
  refine pass (fun _ => audio_dei S _ a vm d h) fun _ => ?_
  refine pass (fun _ => ⟨_, _, _, rfl, rfl, h⟩) fun _ => ?_
  refine pass (fun _ => ⟨_, _, _, rfl, rfl, h⟩) fun _ => ?_
  refine pass (fun _ => ⟨_, _, _, rfl, rfl, h⟩) fun _ => ?_
  refine pass (fun _ => ⟨_, _, _, rfl, rfl, h⟩) fun _ => ?_
  refine pass (fun _ => ?_) fun _ => ⟨_, _, _, rfl, rfl, h⟩
  obtain ⟨v, hv⟩ := Cli.datetime_dei (d.core.clock.reading d.core.clock.calls) (fun t ht => h.core.clock _ t ht) vm a
  rw [hv]
  exact ⟨_, _, _, rfl, rfl, ⟨⟨h.core.size, h.core.files, h.core.clock⟩, h.con, h.scr, h.audio⟩⟩

theorem file_deo (F : File.Host τ) (hR : Respects F R) (second : Bool) (id a : Byte) (vm : VM) (d : Data τ)
    (h : DataOk R vm.memSize d) :
    ∃ vm' d', ((Cli.fileDeo F second id a vm d.core).map fun x : VM × Cli.Data τ => (x.1, { d with core := x.2 })) = .ok (vm', d') ∧
      vm'.memSize = vm.memSize ∧ DataOk R vm.memSize d' := by
  have hs := h.core.size
  obtain ⟨vm', c', e, h1, h2, h3⟩ := Cli.file_deo F hR second id a vm d.core (by omega) h.core.files
  rw [e]
  exact ⟨vm', _, rfl, h1, ⟨⟨hs, h2, by dsimp only; rw [h3]; exact h.core.clock⟩, h.con, h.scr, h.audio⟩⟩

theorem deo_ok (F : File.Host τ) (hR : Respects F R) (dev : Devices) (a : Byte) (vm : VM) (d : Data τ) (h : DataOk R vm.memSize d)
    (hw : deviceId a = 0x20 → WriteOk vm d.gui a) :
    ∃ vm' d', deo F dev a vm d = .ok (vm', d') ∧ vm'.memSize = vm.memSize ∧ DataOk R vm.memSize d' := by
  unfold deo
  dsimp only
  split
  · exact system_deo a vm d h
  split
  · split
    · obtain ⟨d', e, h'⟩ := print_ok .info _ vm d h
      exact ⟨vm, d', e, rfl, h'⟩
    · obtain ⟨d', e, h'⟩ := print_ok .error _ vm d h
      exact ⟨vm, d', e, rfl, h'⟩
    · exact ⟨_, _, rfl, rfl, h⟩
  split
  · rename_i e
    obtain ⟨g, e1, h1⟩ := screen_deo a vm d h (hw e)
    rw [e1]
    exact ⟨_, _, rfl, rfl, h1⟩
  split
  · split
    · exact ⟨_, _, rfl, rfl, ⟨h.core, h.con, h.scr, h.audio⟩⟩
    · exact ⟨_, _, rfl, rfl, h⟩
  split
  · exact file_deo F hR false _ a vm d h
  split
  · exact file_deo F hR true _ a vm d h
  · exact ⟨_, _, rfl, rfl, h⟩

theorem guarded_sound (F : File.Host τ) (hR : Respects F R) (S : Sounds) (dev : Devices) :
    Sound (DataOk R) (fun u => u ≠ .arith) (guarded F S dev) where
  dei a vm d hi := by
    by_cases hc : deviceId a = 0x20 ∧ ¬ ReadOk vm
    · rw [show (guarded F S dev).dei a vm d = .error .arith from if_pos hc]
      exact fun hh => hh rfl
    · obtain ⟨v, vm', d', e, h1, h2⟩ := dei_ok S dev a vm d hi (fun hid => by
        by_contra hn
        exact hc ⟨hid, hn⟩)
      rw [show (guarded F S dev).dei a vm d = .ok (v, vm', d') from (if_neg hc).trans e]
      exact ⟨h1, h2⟩
  deo a vm d hi := by
    by_cases hc : deviceId a = 0x20 ∧ ¬ WriteOk vm d.gui a
    · rw [show (guarded F S dev).deo a vm d = .error .arith from if_pos hc]
      exact fun hh => hh rfl
    · obtain ⟨vm', d', e, h1, h2⟩ := deo_ok F hR dev a vm d hi (fun hid => by
        by_contra hn
        exact hc ⟨hid, hn⟩)
      rw [show (guarded F S dev).deo a vm d = .ok (vm', d') from (if_neg hc).trans e]
      exact ⟨h1, h2⟩

theorem guards (F : File.Host τ) (S : Sounds) (dev : Devices) : Guards .arith (guarded F S dev) (host F S dev) where
  dei a vm d := by
    by_cases hc : deviceId a = 0x20 ∧ ¬ ReadOk vm
    · exact .inr (if_pos hc)
    · exact .inl (if_neg hc)
  deo a vm d := by
    by_cases hc : deviceId a = 0x20 ∧ ¬ WriteOk vm d.gui a
    · exact .inr (if_pos hc)
    · exact .inl (if_neg hc)

/-! ## The size of the memory -/

theorem memset_memSize {vm vm' : VM} {start : Nat} {fill : Byte} {n : Nat} (h : System.memset vm start fill n = .ok vm') :
    vm'.memSize = vm.memSize := by
  unfold System.memset at h
  split at h
  · cases h; rfl
  · cases h

theorem wr_memSize {vm vm' : VM} {a : Nat} {v : Byte} (h : vm.wr a v = .ok vm') : vm'.memSize = vm.memSize := by
  unfold VM.wr at h
  split at h
  · cases h; rfl
  · cases h

theorem copyLeft_memSize {src dst length k : Nat} {vm vm' : VM} (h : System.copyLeft src dst length k vm = .ok vm') :
    vm'.memSize = vm.memSize := by
  induction k generalizing vm with
  | zero => cases h; rfl
  | succ k ih =>
    unfold System.copyLeft at h
    obtain ⟨v, -, h⟩ := bind_ok h
    obtain ⟨vm1, h1, h⟩ := bind_ok h
    exact (ih h).trans (wr_memSize h1)

theorem copyRight_memSize {src dst k : Nat} {vm vm' : VM} (h : System.copyRight src dst k vm = .ok vm') :
    vm'.memSize = vm.memSize := by
  induction k generalizing vm with
  | zero => cases h; rfl
  | succ k ih =>
    unfold System.copyRight at h
    obtain ⟨v, -, h⟩ := bind_ok h
    obtain ⟨vm1, h1, h⟩ := bind_ok h
    exact (ih h).trans (wr_memSize h1)

theorem expansion_memSize {vm vm' : VM} (h : System.expansion vm = .ok vm') : vm'.memSize = vm.memSize := by
  unfold System.expansion at h
  obtain ⟨op, -, h⟩ := bind_ok h
  obtain ⟨len, -, h⟩ := bind_ok h
  split at h
  · obtain ⟨_, -, h⟩ := bind_ok h
    obtain ⟨_, -, h⟩ := bind_ok h
    obtain ⟨_, -, h⟩ := bind_ok h
    exact memset_memSize h
  · split at h
    · obtain ⟨_, -, h⟩ := bind_ok h
      obtain ⟨_, -, h⟩ := bind_ok h
      obtain ⟨_, -, h⟩ := bind_ok h
      obtain ⟨_, -, h⟩ := bind_ok h
      split at h
      · exact copyLeft_memSize h
      · exact copyRight_memSize h
    · cases h; rfl

theorem setMetadata_memSize {vm vm' : VM} {a : Short} {es : List Title.Effect} (h : Title.setMetadata vm a = .ok (es, vm')) :
    vm'.memSize = vm.memSize := by
  unfold Title.setMetadata at h
  obtain ⟨m, -, h⟩ := bind_ok h
  cases m with
  | none => cases h; rfl
  | some m =>
    obtain ⟨⟨es, mem⟩, -, h⟩ := bind_ok h
    cases h; rfl

theorem map_ok {α β : Type} {x : Res α} {f : α → β} {b : β} (h : x.map f = .ok b) : ∃ a, x = .ok a ∧ f a = b := by
  cases x with
  | error u => cases h
  | ok a => exact ⟨a, rfl, Except.ok.inj h⟩

theorem dei_memSize {S : Sounds} {dev : Devices} {a : Byte} {vm vm' : VM} {d d' : Data τ} {v : Byte}
    (h : dei S dev a vm d = .ok (v, vm', d')) : vm'.memSize = vm.memSize := by
  unfold dei at h
  dsimp only at h
  split at h
  · cases h; rfl
  split at h
  · cases h; rfl
  split at h
  · cases h; rfl
  split at h
  · unfold audioDei at h
    obtain ⟨⟨c, _⟩, -, h⟩ := bind_ok h
    obtain ⟨⟨_, _, _⟩, -, h⟩ := bind_ok h
    cases h; rfl
  split at h
  · cases h; rfl
  split at h
  · cases h; rfl
  split at h
  · cases h; rfl
  split at h
  · cases h; rfl
  split at h
  · obtain ⟨_, -, h⟩ := map_ok h
    cases h; rfl
  · cases h; rfl

theorem print_memSize {l : Text.Level} {c : Byte} {vm vm' : VM} {d d' : Data τ} (h : print l c vm d = .ok (vm', d')) :
    vm'.memSize = vm.memSize := by
  unfold print at h
  obtain ⟨_, -, h⟩ := bind_ok h
  cases h; rfl

theorem fileDeo_memSize {F : File.Host τ} {second : Bool} {id a : Byte} {vm vm' : VM} {d d' : Data τ}
    (h : ((Cli.fileDeo F second id a vm d.core).map fun x : VM × Cli.Data τ => (x.1, { d with core := x.2 })) = .ok (vm', d')) :
    vm'.memSize = vm.memSize := by
  obtain ⟨⟨vm1, c⟩, h1, h⟩ := map_ok h
  cases h
  unfold Cli.fileDeo at h1
  obtain ⟨w, -, h1⟩ := map_ok h1
  cases h1; rfl

theorem deo_memSize {F : File.Host τ} {dev : Devices} {a : Byte} {vm vm' : VM} {d d' : Data τ}
    (h : deo F dev a vm d = .ok (vm', d')) : vm'.memSize = vm.memSize := by
  unfold deo at h
  dsimp only at h
  split at h
  · unfold System.deo at h
    split at h
    · obtain ⟨vm1, h1, h⟩ := bind_ok h
      cases h
      exact expansion_memSize h1
    split at h
    · cases h; rfl
    split at h
    · cases h; rfl
    split at h
    · obtain ⟨⟨es, vm1⟩, h1, h⟩ := map_ok h
      cases h
      exact setMetadata_memSize h1
    split at h
    · cases h; rfl
    split at h
    · split at h
      · cases h; rfl
      · cases h; rfl
    · cases h; rfl
  split at h
  · split at h
    · exact print_memSize h
    · exact print_memSize h
    · cases h; rfl
  split at h
  · obtain ⟨_, -, h⟩ := bind_ok h
    cases h; rfl
  split at h
  · split at h
    · cases h; rfl
    · cases h; rfl
  split at h
  · exact fileDeo_memSize h
  split at h
  · exact fileDeo_memSize h
  · cases h; rfl

theorem host_keeps (F : File.Host τ) (S : Sounds) (dev : Devices) : KeepsMemSize (host F S dev) where
  dei _ _ _ _ _ _ h := dei_memSize h
  deo _ _ _ _ _ h := deo_memSize h

theorem guarded_keeps (F : File.Host τ) (S : Sounds) (dev : Devices) : KeepsMemSize (guarded F S dev) where
  dei a vm d v vm' d' h := by
    rcases (guards F S dev).dei a vm d with e | e
    · exact dei_memSize (e.symm.trans h)
    · rw [e] at h; cases h
  deo a vm d vm' d' h := by
    rcases (guards F S dev).deo a vm d with e | e
    · exact deo_memSize (e.symm.trans h)
    · rw [e] at h; cases h

end Buxn.Gui.Whole
