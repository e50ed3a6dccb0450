import Verif.Asm.Accepts
import Verif.Asm.MeaningRun
/-!
# C80: what has been read stays
-/

namespace Buxn.Asm.Meaning
open Buxn.VM Buxn.Asm Buxn.Asm.Spec

/-- A step keeps what there was. -/
def Onward (s s' : State) : Prop := Fresh s → Fresh s' ∧ Grows s s'

theorem Onward.trans {a b c : State} (h : Onward a b) (h' : Onward b c) : Onward a c := fun hf => by
  obtain ⟨h1, h2⟩ := h hf
  obtain ⟨h3, h4⟩ := h' h1
  exact ⟨h3, h2.trans h4⟩

/-- Nothing but what does not matter changes. -/
theorem Onward.of {s s' : State} (hb : ∀ p ∈ s.bytes, p ∈ s'.bytes) (hr : ∀ r ∈ s.refs, r ∈ s'.refs) (hl : ∀ n a, s.labels.lookup n = some a → s'.labels.lookup n = some a)
    (hm : s'.macros = s.macros) (ho : s'.opened = s.opened) (hn : s'.count = s.count) (hc : s'.closed = s.closed) : Onward s s' := fun hf =>
  ⟨⟨by rw [ho]; exact hf.nodup, by rw [ho, hn, hc]; exact hf.opened, by rw [hn, hc]; exact hf.closed⟩,
    ⟨hb, hr, hl, fun _ _ h => by rw [hm]; exact h, fun _ _ h => by rw [hc]; exact h⟩⟩

theorem Onward.refl (s : State) : Onward s s := fun h => ⟨h, .refl s⟩

theorem used_onward (l : List Str) (s : State) : Onward s { s with used := l } := .of (fun _ h => h) (fun _ h => h) (fun _ _ h => h) rfl rfl rfl rfl

theorem put_onward (bs : List Byte) (s : State) : Onward s (s.put bs) := by
  rw [put_eq]
  exact .of (fun p h => List.mem_append_right _ h) (fun _ h => h) (fun _ _ h => h) rfl rfl rfl rfl

theorem target_onward {ref : Str} {s s' : State} {t : Target} (h : s.target ref = some (t, s')) : Onward s s' := by
  unfold State.target at h
  split at h
  · cases h
    intro hf
    refine ⟨⟨?_, ?_, ?_⟩, ⟨fun _ h => h, fun _ h => h, fun _ _ h => h, fun _ _ h => h, fun _ _ h => h⟩⟩
    · exact List.nodup_cons.2 ⟨fun h => absurd (hf.opened _ h).1 (Nat.lt_irrefl _), hf.nodup⟩
    · intro k hk
      rcases List.mem_cons.1 hk with rfl | hk
      · refine ⟨Nat.lt_succ_self _, ?_⟩
        cases hx : s.closed.lookup s.count with
        | none => exact rfl
        | some a => exact absurd (hf.closed _ _ hx) (Nat.lt_irrefl _)
      · obtain ⟨h1, h2⟩ := hf.opened k hk
        exact ⟨Nat.lt_succ_of_lt h1, h2⟩
    · intro k a hk
      exact Nat.lt_succ_of_lt (hf.closed k a hk)
  · split at h
    · split at h
      · cases h
      · cases h
        exact .of (fun _ h => h) (fun _ h => h) (fun _ _ h => h) rfl rfl rfl rfl
    · rw [Option.map_eq_some_iff] at h
      obtain ⟨n, -, h⟩ := h
      cases h
      exact used_onward _ _

theorem refer_onward (k : RefKind) (z : RefSize) (t : Target) (s : State) : Onward s (s.refer k z t) :=
  .of (fun _ h => h) (fun _ h => List.mem_cons_of_mem _ h) (fun _ _ h => h) rfl rfl rfl rfl

theorem refers_onward {ref : Str} {k : RefKind} {z : RefSize} {s s' : State} (h : Refers ref k z s s') : Onward s s' := by
  obtain ⟨t, s1, h, rfl⟩ := h
  exact (target_onward h).trans (refer_onward _ _ _ _)

theorem defines_onward {n : Str} {s s' : State} (h : Defines n s s') : Onward s s' := by
  obtain ⟨h1, rfl⟩ := h
  refine .of (fun _ h => h) (fun _ h => h) ?_ rfl rfl rfl rfl
  intro m a hm
  show ((n, s.addr) :: s.labels).lookup m = _
  rw [lookup_cons, if_neg]
  · exact hm
  · rintro rfl; rw [h1] at hm; cases hm

theorem pads_onward {p : Str} {s s' : State} {a : Short} (h : Pads p s a s') : Onward s s' := by
  cases h
  · exact .refl _
  · exact .of (fun _ h => h) (fun _ h => h) (fun _ _ h => h) rfl rfl rfl rfl
  · exact used_onward _ _

theorem addr_onward (a : Short) (s : State) : Onward s { s with addr := a } := .of (fun _ h => h) (fun _ h => h) (fun _ _ h => h) rfl rfl rfl rfl

theorem bare_onward {w : Str} {s s' : State} (h : Bare w s s') : Onward s s' := by
  rcases h with ⟨v, k, -, rfl⟩ | ⟨-, i, op, -, -, rfl⟩ | ⟨-, h⟩
  · exact put_onward _ _
  · exact put_onward _ _
  · exact (put_onward _ _).trans (refers_onward h)

theorem word_onward {w : Str} {s s' : State} (h : Word w s s') : Onward s s' := by
  cases w with
  | nil => exact h.elim
  | cons rune rest =>
    unfold Word at h
    dsimp only at h
    split at h
    · exact (put_onward _ _).trans (refers_onward h)
    · split at h
      · obtain ⟨v, k, -, rfl⟩ := h; exact put_onward _ _
      · split at h
        · rw [h.2]; exact put_onward _ _
        · split at h
          · obtain ⟨a, s1, h, rfl⟩ := h; exact (pads_onward h).trans (addr_onward _ _)
          · split at h
            · obtain ⟨a, s1, h, rfl⟩ := h; exact (pads_onward h).trans (addr_onward _ _)
            · split at h
              · rw [h]; exact .of (fun _ h => h) (fun _ h => h) (fun _ _ h => h) rfl rfl rfl rfl
              · split at h
                · obtain ⟨s1, h, rfl⟩ := h
                  exact (defines_onward h).trans (.of (fun _ h => h) (fun _ h => h) (fun _ _ h => h) rfl rfl rfl rfl)
                · split at h
                  · exact defines_onward h
                  · split at h
                    · obtain ⟨k, ks, ho, rfl⟩ := h
                      intro hf
                      have hk := hf.opened k (by rw [ho]; exact List.mem_cons_self)
                      have hnd : (k :: ks).Nodup := by rw [← ho]; exact hf.nodup
                      refine ⟨⟨(List.nodup_cons.1 hnd).2, ?_, ?_⟩, ⟨fun _ h => h, fun _ h => h, fun _ _ h => h, fun _ _ h => h, ?_⟩⟩
                      · intro j hj
                        have h1 := hf.opened j (by rw [ho]; exact List.mem_cons_of_mem _ hj)
                        refine ⟨h1.1, ?_⟩
                        show ((k, s.addr) :: s.closed).lookup j = none
                        rw [lookup_cons, if_neg]
                        · exact h1.2
                        · rintro rfl; exact (List.nodup_cons.1 hnd).1 hj
                      · intro j a hj
                        change ((k, s.addr) :: s.closed).lookup j = some a at hj
                        rw [lookup_cons] at hj
                        split at hj
                        · rename_i e; subst e; exact hk.1
                        · exact hf.closed j a hj
                      · intro j a hj
                        show ((k, s.addr) :: s.closed).lookup j = some a
                        rw [lookup_cons, if_neg]
                        · exact hj
                        · rintro rfl; rw [hk.2] at hj; cases hj
                    · split at h
                      · exact (put_onward _ _).trans (refers_onward h)
                      · exact bare_onward h

theorem define_onward {name : Str} {b : List Str} {s : State} (h : s.macros.lookup name = none) : Onward s { s with macros := (name, b) :: s.macros } := fun hf => by
  refine ⟨⟨hf.1, hf.2, hf.3⟩, ⟨fun _ h => h, fun _ h => h, fun _ _ h => h, ?_, fun _ _ h => h⟩⟩
  intro m c hm
  show ((name, b) :: s.macros).lookup m = _
  rw [lookup_cons, if_neg]
  · exact hm
  · rintro rfl; rw [h] at hm; cases hm

theorem include_onward (l : List Str) (s : State) : Onward s { s with included := l } := .of (fun _ h => h) (fun _ h => h) (fun _ _ h => h) rfl rfl rfl rfl

theorem defer_onward (l : List Str) (s : State) : Onward s { s with deferred := l } := .of (fun _ h => h) (fun _ h => h) (fun _ _ h => h) rfl rfl rfl rfl

theorem reads_onward {files : Files} {ws : List Str} {s s' : State} (h : Reads files ws s s') : Onward s s' := by
  induction h with
  | done => exact .refl _
  | comment _ _ _ ih => exact ih
  | mark _ _ ih => exact ih
  | define _ _ hn _ _ _ ih => exact (define_onward hn).trans ih
  | expand _ _ _ _ _ ih1 ih2 => exact (used_onward _ _).trans (ih1.trans ih2)
  | apply _ _ _ _ _ ih1 ih2 => exact (used_onward _ _).trans (ih1.trans ih2)
  | «include» _ _ _ _ _ _ ih1 ih2 => exact (include_onward _ _).trans (ih1.trans ih2)
  | again _ _ _ _ ih => exact ih
  | defer _ _ ih =>
    refine Onward.trans ?_ ih
    split
    · exact .refl _
    · exact defer_onward _ _
  | word _ hw _ ih => exact (word_onward hw).trans ih

theorem ends_onward {files : Files} {s s' : State} (h : Ends files s s') : Onward s s' := by
  induction h with
  | done _ => exact .refl _
  | «include» _ _ _ hr _ ih =>
    have h1 := reads_onward hr
    refine Onward.trans (b := _) ?_ (h1.trans ih)
    exact .of (fun _ h => h) (fun _ h => h) (fun _ _ h => h) rfl rfl rfl rfl
  | again _ _ _ ih => exact (defer_onward _ _).trans ih

theorem start_fresh : Fresh {} := ⟨.nil, (fun k hk => by cases hk), (fun k a h => by cases h)⟩

theorem Sim.fresh {i : Nat} {s : Asm} {S : State} (h : Sim i s S) : Fresh S := ⟨h.lams.nodup, h.lams.fresh, h.lams.below⟩

/-! ## What the end says about the middle -/

/-- Complete, and the names of labels are short. -/
structure Finished (s : State) : Prop extends Complete s where
  short : ∀ n a, s.labels.lookup n = some a → n.length ≤ WORD

section
variable {s f : State}

/-- Bytes that have been put are not in the zero page. -/
theorem Finished.byte (hf : Finished f) (hg : Grows s f) {p : Short × Byte} (hp : p ∈ s.bytes) : 0x100 ≤ p.1.toNat :=
  hf.places _ (List.mem_append_left _ (List.mem_map_of_mem (hg.bytes p hp)))

theorem Finished.cell (hf : Finished f) (hg : Grows s f) {r : Reference} (hr : r ∈ s.refs) {a : Short} (ha : a ∈ r.cells) : 0x100 ≤ a.toNat :=
  hf.places _ (List.mem_append_right _ (List.mem_flatMap.2 ⟨r, hg.refs r hr, ha⟩))

/-- A target that is found is in reach. -/
theorem Finished.reach (hf : Finished f) (hg : Grows s f) {r : Reference} (hr : r ∈ s.refs) {l : Short} (hl : s.find r.target = some l) :
    InReach r.kind r.size r.addr l := by
  obtain ⟨l', h1, h2⟩ := hf.refs r (hg.refs r hr)
  have : f.find r.target = some l := by
    cases ht : r.target with
    | name n => rw [ht] at hl; exact hg.labels n l hl
    | place a => rw [ht] at hl; exact hl
    | lambda k => rw [ht] at hl; exact hg.closed k l hl
  rw [this] at h1
  cases h1
  exact h2

/-- A name that is referred to is valid, and not that of a macro. -/
theorem Finished.name (hf : Finished f) (hg : Grows s f) {r : Reference} (hr : r ∈ s.refs) {n : Str} (ht : r.target = .name n) :
    ValidName n ∧ n.length ≤ WORD ∧ f.macros.lookup n = none := by
  obtain ⟨l, h1, -⟩ := hf.refs r (hg.refs r hr)
  rw [ht] at h1
  have h1 : f.labels.lookup n = some l := h1
  have h2 := hf.labels n l h1
  have h3 := hf.short n l h1
  refine ⟨h2, h3, ?_⟩
  cases hm : f.macros.lookup n with
  | none => rfl
  | some b => rw [(hf.macros n b hm).2] at h1; cases h1

theorem Finished.label (hf : Finished f) (hg : Grows s f) {n : Str} {a : Short} (hl : s.labels.lookup n = some a) :
    ValidName n ∧ n.length ≤ WORD ∧ f.macros.lookup n = none := by
  have h1 := hg.labels n a hl
  have h2 := hf.labels n a h1
  have h3 := hf.short n a h1
  refine ⟨h2, h3, ?_⟩
  cases hm : f.macros.lookup n with
  | none => rfl
  | some b => rw [(hf.macros n b hm).2] at h1; cases h1

end

end Buxn.Asm.Meaning
