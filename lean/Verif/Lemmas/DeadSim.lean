import Verif.Lemmas.DeadRaw
import Verif.Props.Branch
/-
Renaming the positions of a body commutes with everything that executes it.
-/
namespace Verif.Model

/-- change the value of a successful outcome -/
def Res.rmap {α β : Type} (g : α → β) : Res α → Res β
  | .ok v => .ok (g v)
  | .trap e => .trap e
  | .panic => .panic
  | .ub => .ub

theorem Res.rmap_bind {α β γ : Type} (x : Res α) (k : α → Res β) (g : β → γ) :
    (x >>= k).rmap g = x >>= fun a => (k a).rmap g := by cases x <;> rfl
theorem Res.bind_rmap {α β γ : Type} (x : Res α) (g : α → β) (k : β → Res γ) :
    (x.rmap g >>= k) = x >>= fun a => k (g a) := by cases x <;> rfl
theorem Res.bind_congr {α β : Type} {x : Res α} {k k' : α → Res β} (h : ∀ a, k a = k' a) : (x >>= k) = (x >>= k') := by
  cases x with
  | ok a => exact h a
  | _ => rfl
theorem Res.rmap_ite {α β : Type} (g : α → β) (c : Prop) [Decidable c] (x y : Res α) :
    (if c then x else y).rmap g = if c then x.rmap g else y.rmap g := by split <;> rfl

/-- rename the positions of a label -/
def Label.ren (f : Nat → Nat) (l : Label) : Label := ⟨l.isLoop, f l.returnIp, f l.ip⟩
/-- rename the positions of a state -/
def VM.ren (f : Nat → Nat) (s : VM) : VM := { s with pc := f s.pc, labels := s.labels.map (Label.ren f) }
/-- rename the positions of what a handler leaves -/
def Out.ren (f : Nat → Nat) : Out → Out
  | .cont s => .cont (s.ren f)
  | .yield y s => .yield y (s.ren f)
/-- rename the positions of a dispatcher state -/
def DState.ren (f : Nat → Nat) (d : DState) : DState := { d with vm := d.vm.ren f }
/-- rename the positions of the end of a dispatcher call -/
def Final.ren (f : Nat → Nat) : Final → Final
  | .halt d => .halt (d.ren f)
  | .yield y d => .yield y (d.ren f)
  | .ckpt d => .ckpt (d.ren f)

end Verif.Model

namespace Verif.Lemmas
open Verif.Model Verif.Spec Verif.Props

/-- two programs with the same types and functions of the same types -/
structure SameSig (P Q : Prog) : Prop where
  types : Q.types = P.types
  funcs : ∀ g : Nat, (Q.funcs[g]?).map FuncInst.type = (P.funcs[g]?).map FuncInst.type

theorem write_ren (f : Nat → Nat) (s : VM) (c : Cls) (d : Dst) (v : c.Carrier) :
    (s.ren f).write c d v = (s.write c d v).rmap (VM.ren f) := by
  cases d with
  | reg i =>
    simp only [VM.write, Res.rmap_bind]
    rfl
  | loc i =>
    simp only [VM.write]
    have : (s.ren f).locals = s.locals := rfl
    rw [this]
    split <;> rfl

theorem read_ren (f : Nat → Nat) (s : VM) (c : Cls) (o : Opnd c) : (s.ren f).read c o = s.read c o := by
  cases o <;> rfl
theorem rawMem_ren (f : Nat → Nat) (s : VM) : (s.ren f).rawMem = s.rawMem := rfl
theorem mem0_ren (f : Nat → Nat) (s : VM) : (s.ren f).mem0 = s.mem0 := rfl
theorem setMem_ren (f : Nat → Nat) (s : VM) (m : Mem) : (s.ren f).setMem m = (s.setMem m).ren f := rfl
theorem rf_ren (f : Nat → Nat) (s : VM) : (s.ren f).rf = s.rf := rfl
theorem inst_ren (f : Nat → Nat) (s : VM) : (s.ren f).inst = s.inst := rfl
theorem locals_ren (f : Nat → Nat) (s : VM) : (s.ren f).locals = s.locals := rfl

theorem next_ren {f : Nat → Nat} {s : VM} {p : Nat} (h : f (p + 1) = f p + 1) (hp : s.pc = p) : (s.ren f).next = s.next.ren f := by
  subst hp
  simp only [VM.next, VM.ren, h]

theorem branch_ren (f : Nat → Nat) (s : VM) (d t : Nat) (src dst : List Reg) :
    (s.ren f).branch d (f t) src dst = (s.branch d t src dst).rmap (VM.ren f) := by
  simp only [VM.branch, Res.rmap_bind, rf_ren]
  refine Res.bind_congr fun rf => ?_
  simp only [Res.pure_eq, Res.rmap, VM.ren, List.length_map, List.map_drop]

theorem step_ren {H : FloatHost} {P Q : Prog} (hP : SameSig P Q) {f : Nat → Nat} {len len' : Nat} {s : VM} {i : Instr}
    (hl : len' = f len) (hn : stops i = false → f (s.pc + 1) = f s.pc + 1) (hm : ∀ x y, f x ≤ f y ↔ x ≤ y) :
    step H Q len' (s.ren f) (i.ren f) = (step H P len s i).rmap (Out.ren f) := by
  cases i <;> simp only [step, Instr.ren, read_ren, rawMem_ren, mem0_ren, rf_ren, inst_ren, locals_ren, Res.rmap_bind, write_ren, Res.bind_rmap]
  case op1 op dst src =>
    refine Res.bind_congr fun a => Res.bind_congr fun r => ?_
    cases hw : s.write op.dst dst r with
    | ok s1 => exact congrArg (fun x => Res.ok (Out.cont x)) (next_ren (hn rfl) (VM.write_frame hw).1)
    | _ => rfl
  case op2 op dst x y =>
    refine Res.bind_congr fun a => Res.bind_congr fun b => Res.bind_congr fun r => ?_
    cases hw : s.write op.dst dst r with
    | ok s1 => exact congrArg (fun x => Res.ok (Out.cont x)) (next_ren (hn rfl) (VM.write_frame hw).1)
    | _ => rfl
  case load op dst addr off =>
    refine Res.bind_congr fun a => Res.bind_congr fun b => Res.bind_congr fun r => ?_
    cases hw : s.write op.cls dst r with
    | ok s1 => exact congrArg (fun x => Res.ok (Out.cont x)) (next_ren (hn rfl) (VM.write_frame hw).1)
    | _ => rfl
  case globalGet c dst g =>
    split
    · rfl
    · rename_i gl _
      simp only [Res.rmap_bind, Res.bind_rmap]
      cases hw : s.write c dst (gl.value.as c) with
      | ok s1 => exact congrArg (fun x => Res.ok (Out.cont x)) (next_ren (hn rfl) (VM.write_frame hw).1)
      | _ => rfl
  case refLocalSet src l =>
    refine Res.bind_congr fun v => ?_
    cases hw : s.write .ref (.loc l) v with
    | ok s1 => exact congrArg (fun x => Res.ok (Out.cont x)) (next_ren (hn rfl) (VM.write_frame hw).1)
    | _ => rfl
  case store =>
    exact Res.bind_congr fun _ => Res.bind_congr fun _ => Res.bind_congr fun _ => Res.bind_congr fun _ => by
      simp only [Res.pure_eq, Res.rmap, Out.ren, VM.next, VM.ren, VM.setMem, hn rfl]
  case memSize =>
    exact Res.bind_congr fun _ => Res.bind_congr fun _ => by
      simp only [Res.pure_eq, Res.rmap, Out.ren, VM.next, VM.ren, VM.setMem, hn rfl]
  case memGrow =>
    exact Res.bind_congr fun _ => Res.bind_congr fun _ => Res.bind_congr fun x => by
      obtain ⟨r, m'⟩ := x
      simp only [Res.rmap_bind]
      exact Res.bind_congr fun _ => by simp only [Res.pure_eq, Res.rmap, Out.ren, VM.next, VM.ren, VM.setMem, hn rfl]
  case memCopy =>
    exact Res.bind_congr fun _ => Res.bind_congr fun _ => Res.bind_congr fun _ => Res.bind_congr fun _ => Res.bind_congr fun _ => by
      simp only [Res.pure_eq, Res.rmap, Out.ren, VM.next, VM.ren, VM.setMem, hn rfl]
  case memFill =>
    exact Res.bind_congr fun _ => Res.bind_congr fun _ => Res.bind_congr fun _ => Res.bind_congr fun _ => Res.bind_congr fun _ => by
      simp only [Res.pure_eq, Res.rmap, Out.ren, VM.next, VM.ren, VM.setMem, hn rfl]
  case memInit =>
    exact Res.bind_congr fun _ => by
      split
      · rfl
      · simp only [Res.rmap_bind]
        exact Res.bind_congr fun _ => Res.bind_congr fun _ => Res.bind_congr fun _ => Res.bind_congr fun _ => by
          simp only [Res.pure_eq, Res.rmap, Out.ren, VM.next, VM.ren, VM.setMem, hn rfl]
  case select =>
    exact Res.bind_congr fun _ => Res.bind_congr fun _ => Res.bind_congr fun _ => by
      simp only [Res.pure_eq, Res.rmap, Out.ren, VM.next, VM.ren, hn rfl]
  case globalSet =>
    exact Res.bind_congr fun _ => Res.bind_congr fun _ => by
      simp only [Res.pure_eq, Res.rmap, Out.ren, VM.next, VM.ren, hn rfl]
  case dataDrop => simp only [Res.rmap, Out.ren, VM.next, VM.ren, hn rfl]
  case refLocalGet =>
    split
    · rfl
    · split
      · simp only [Res.rmap_bind]
        exact Res.bind_congr fun _ => by simp only [Res.pure_eq, Res.rmap, Out.ren, VM.next, VM.ren, hn rfl]
      · simp only [Res.rmap, Out.ren, VM.next, VM.ren, hn rfl]
  case refNull =>
    exact Res.bind_congr fun _ => by simp only [Res.pure_eq, Res.rmap, Out.ren, VM.next, VM.ren, hn rfl]
  case refIsNull =>
    exact Res.bind_congr fun _ => Res.bind_congr fun _ => by
      simp only [Res.pure_eq, Res.rmap, Out.ren, VM.next, VM.ren, hn rfl]
  case tableGet =>
    split
    · rfl
    · simp only [Res.rmap_bind]
      exact Res.bind_congr fun _ => by
        split
        · rfl
        · simp only [Res.rmap_bind]
          exact Res.bind_congr fun _ => by simp only [Res.pure_eq, Res.rmap, Out.ren, VM.next, VM.ren, hn rfl]
  case tableSet =>
    split
    · rfl
    · simp only [Res.rmap_bind]
      exact Res.bind_congr fun _ => Res.bind_congr fun _ => by
        split
        · simp only [Res.pure_eq, Res.rmap, Out.ren, VM.next, VM.ren, hn rfl]
        · rfl
  case tableFill =>
    split
    · rfl
    · simp only [Res.rmap_bind]
      exact Res.bind_congr fun _ => Res.bind_congr fun _ => Res.bind_congr fun _ => Res.bind_congr fun _ => by
        simp only [Res.pure_eq, Res.rmap, Out.ren, VM.next, VM.ren, hn rfl]
  case callWasi =>
    exact Res.bind_congr fun _ => by simp only [Res.pure_eq, Res.rmap, Out.ren, VM.next, VM.ren, hn rfl]
  case callIndirect ty t idx params results =>
    refine Res.bind_congr fun i => ?_
    cases s.inst.tables[t]? with
    | none => rfl
    | some tb =>
      simp only
      split
      · rename_i g hg
        have h1 := hP.funcs g
        rw [hP.types]
        cases hp : P.funcs[g]? with
        | none =>
          rw [hp] at h1
          cases hq : Q.funcs[g]? with
          | none => rfl
          | some y => rw [hq] at h1; cases h1
        | some x =>
          rw [hp] at h1
          cases hq : Q.funcs[g]? with
          | none => rw [hq] at h1; cases h1
          | some y =>
            rw [hq] at h1
            simp only [Option.map_some, Option.some.injEq] at h1
            cases P.types[ty]? with
            | none => rfl
            | some want =>
              simp only [h1]
              split
              · simp only [Res.rmap_bind]
                exact Res.bind_congr fun _ => Res.bind_congr fun _ => by
                  simp only [Res.pure_eq, Res.rmap, Out.ren, VM.next, VM.ren, hn rfl]
              · rfl
      · rfl
  case call g params results =>
    have h1 := hP.funcs g
    cases hp : P.funcs[g]? with
    | none =>
      rw [hp] at h1
      cases hq : Q.funcs[g]? with
      | none => rfl
      | some y => rw [hq] at h1; cases h1
    | some x =>
      rw [hp] at h1
      cases hq : Q.funcs[g]? with
      | none => rw [hq] at h1; cases h1
      | some y =>
        simp only [Res.rmap_bind]
        exact Res.bind_congr fun _ => Res.bind_congr fun _ => by
          simp only [Res.pure_eq, Res.rmap, Out.ren, VM.next, VM.ren, hn rfl]
  case ret =>
    exact Res.bind_congr fun _ => rfl
  case jump t =>
    simp only [Res.rmap, Out.ren, VM.ren, List.length_map, Res.ok.injEq, Out.cont.injEq, VM.mk.injEq, true_and, and_true]
    split <;> simp [List.map_tail]
  case block l => simp only [Res.rmap, Out.ren, VM.ren, List.map_cons, Label.ren, hn rfl]
  case ite c t h =>
    refine Res.bind_congr fun v => ?_
    split
    · simp only [Res.pure_eq, Res.rmap, Out.ren, VM.ren, List.map_cons, Label.ren, hn rfl]
    · split
      · simp only [Res.pure_eq, Res.rmap, Out.ren, VM.ren, List.map_cons, Label.ren]
      · simp only [Res.pure_eq, Res.rmap, Out.ren, VM.ren]
  case fin src dst =>
    have e1 : (s.ren f).labels.length = s.labels.length := by simp [VM.ren]
    have e2 : (s.ren f).labels.tail.length = s.labels.tail.length := by simp [VM.ren]
    rw [e1, Res.rmap_ite]
    split
    · simp only [Res.rmap_bind]
      exact Res.bind_congr fun _ => by simp only [Res.pure_eq, Res.rmap, Out.ren, VM.ren, hl]
    · simp only [Res.rmap_bind]
      refine Res.bind_congr fun rf => ?_
      simp only [e2]
      have e3 : len' ≤ (s.ren f).pc + 1 ↔ len ≤ s.pc + 1 := by
        rw [hl, show (s.ren f).pc + 1 = f (s.pc + 1) from (hn rfl).symm]
        exact hm _ _
      simp only [e3]
      rw [Res.rmap_ite]
      split
      · simp only [Res.rmap_bind]
        exact Res.bind_congr fun _ => by simp only [Res.pure_eq, Res.rmap, Out.ren, VM.ren, hl, List.map_tail]
      · simp only [Res.pure_eq, Res.rmap, Out.ren, VM.next, VM.ren, hn rfl, List.map_tail]
  case br d t src dst =>
    rw [branch_ren, Res.bind_rmap]
    exact Res.bind_congr fun _ => rfl
  case brIf d t c src dst =>
    refine Res.bind_congr fun v => ?_
    split
    · simp only [Res.pure_eq, Res.rmap, Out.ren, VM.next, VM.ren, hn rfl]
    · rw [branch_ren, Res.bind_rmap, Res.rmap_bind]
      exact Res.bind_congr fun _ => rfl
  case brTable ts d i src =>
    refine Res.bind_congr fun v => ?_
    have : ((List.map (fun x : Nat × Nat × List Reg => (x.1, f x.2.1, x.2.2)) ts)[BitVec.toNat (w := 32) v]?).getD (d.1, f d.2.1, d.2.2) =
        (fun x : Nat × Nat × List Reg => (x.1, f x.2.1, x.2.2)) ((ts[BitVec.toNat (w := 32) v]?).getD d) := by
      rw [List.getElem?_map]
      cases ts[BitVec.toNat (w := 32) v]? <;> rfl
    rw [this]
    simp only
    rw [branch_ren, Res.bind_rmap]
    exact Res.bind_congr fun _ => rfl
  case nop => simp only [Res.rmap, Out.ren, VM.next, VM.ren, hn rfl]
  case unreachable => rfl

/-! ## where control never goes -/

/-- control never reaches a `nop`: those stand only for code that cannot be reached -/
theorem alive_flow {code : List Instr} (hr : Routed code) (hn : NoFall code) {p : Nat} {i : Instr} (hi : code[p]? = some i)
    (h0 : i ≠ .nop) {ls : List Label} : ∀ q ∈ flow code.length p ls i, code[q.1]? ≠ some .nop := by
  have next : stops i = false → code[p + 1]? ≠ some .nop := by
    intro h1 h2
    obtain ⟨j, h3, h4⟩ := hn.behind p h2
    rw [hi] at h3; cases h3
    rcases h4 with h4 | h4
    · rw [h1] at h4; cases h4
    · exact h0 h4
  have after : ∀ s e, Closes code s e → code[e + 1]? ≠ some .nop := by
    rintro s e ⟨⟨a, b, h1⟩, _⟩ h2
    obtain ⟨j, h3, h4⟩ := hn.behind e h2
    rw [h1] at h3; cases h3
    rcases h4 with h4 | h4 <;> cases h4
  have leads : ∀ d t, Leads code p d t → code[t]? ≠ some .nop := by
    intro d t h
    unfold Leads at h
    split at h
    · rcases h with ⟨h1, rfl⟩ | ⟨_, e, h1, rfl⟩
      · rw [h1]; nofun
      · exact after _ e h1
    · subst h; simp
  intro q hq
  cases hci : i with
  | jump t =>
    subst hci
    simp only [flow, List.mem_singleton] at hq
    subst hq
    obtain ⟨s, e, _, h1, rfl⟩ := hr.jump p t hi
    exact after s e h1
  | ite c t h =>
    subst hci
    simp only [flow, List.mem_cons, List.not_mem_nil, or_false] at hq
    obtain ⟨e, h1, h2⟩ := hr.ite p c t h hi
    have ht : code[t]? ≠ some .nop := by
      rcases h2 with ⟨q, ⟨⟨t', h3⟩, _⟩, rfl, rfl⟩ | ⟨_, rfl, rfl⟩
      · intro h4
        obtain ⟨j, h5, h6⟩ := hn.behind q h4
        rw [h3] at h5; cases h5
        rcases h6 with h6 | h6 <;> cases h6
      · exact after _ e h1
    rcases hq with rfl | rfl
    · exact next rfl
    · split <;> exact ht
  | fin a b =>
    subst hci
    simp only [flow] at hq
    have hlen : code[code.length]? ≠ some .nop := by simp
    split at hq
    · simp only [List.mem_singleton] at hq; subst hq; exact hlen
    · split at hq
      · simp only [List.mem_singleton] at hq; subst hq; exact hlen
      · simp only [List.mem_singleton] at hq; subst hq; exact next rfl
  | br d t s r =>
    subst hci
    simp only [flow, List.mem_singleton] at hq
    subst hq
    exact leads _ _ (hr.br p d t s r hi)
  | brIf d t c s r =>
    subst hci
    simp only [flow, List.mem_cons, List.not_mem_nil, or_false] at hq
    rcases hq with rfl | rfl
    · exact next rfl
    · exact leads _ _ (hr.brIf p d t c s r hi)
  | brTable ts df i0 s =>
    subst hci
    have key : ∀ x ∈ df :: ts, code[x.2.1]? ≠ some .nop := by
      intro x hx
      have := hr.table p ts df i0 s hi x hx
      split at this
      · exact leads _ _ this
      · rw [this]; exact hn.first
    simp only [flow, List.mem_cons, List.mem_map] at hq
    rcases hq with rfl | ⟨x, hx, rfl⟩
    · exact key _ List.mem_cons_self
    · exact key _ (List.mem_cons_of_mem _ hx)
  | _ =>
    subst hci
    first
    | (simp only [flow, List.not_mem_nil] at hq; done)
    | (simp only [flow, List.mem_singleton] at hq
       subst hq
       exact next rfl)

/-- a dispatcher call stands at a proper place of its body, and not on a `nop` -/
structure StandsAt (code : List Instr) (s : VM) : Prop where
  pc : s.pc ≤ code.length
  labels : LabelsAt code s.pc s.labels
  alive : code[s.pc]? ≠ some .nop

/-- what is known of a body made by the preprocessor -/
structure Made (code : List Instr) : Prop where
  inside : Inside code
  routed : Routed code
  noFall : NoFall code

theorem StandsAt.step {E : Env} {code : List Instr} (hc : Made code) {s s' : VM} (h : StandsAt code s) {i : Instr}
    (hi : code[s.pc]? = some i) (hs : Model.step E.H E.P code.length s i = .ok (.cont s')) : StandsAt code s' :=
  ⟨step_pc (List.getElem?_eq_some_iff.mp hi).1 (hc.inside i (List.mem_of_getElem? hi)) hs,
    labels_flow hc.routed hi h.labels _ (step_flow hs),
    alive_flow hc.routed hc.noFall hi (fun e => h.alive (by rw [hi, e])) _ (step_flow hs)⟩

theorem StandsAt.call {E : Env} {code : List Instr} (hc : Made code) {s s' : VM} (h : StandsAt code s) {i : Instr}
    (hi : code[s.pc]? = some i) {y : Yield} (hs : Model.step E.H E.P code.length s i = .ok (.yield y s')) : y = .ret ∨ StandsAt code s' := by
  have hlt := (List.getElem?_eq_some_iff.mp hi).1
  rcases step_yield hs with h1 | ⟨h1, h2, h3⟩
  · exact .inl h1
  · refine .inr ⟨by omega, ?_, ?_⟩
    · have : enclosing code (s.pc + 1) = enclosing code s.pc := by
        rw [enclosing, hi]
        cases i <;> simp only [isCall, Bool.false_eq_true] at h1 <;> rfl
      have h4 := h.labels
      rw [h2, h3]
      unfold LabelsAt at *
      rw [h4, this]
    · rw [h2]
      intro h4
      obtain ⟨j, h5, h6⟩ := hc.noFall.behind _ h4
      rw [hi] at h5; cases h5
      cases i <;> simp only [isCall, Bool.false_eq_true] at h1 <;> rcases h6 with h6 | h6 <;> cases h6

/-! ## moved bodies -/

/-- `body'` is `body` with its positions renamed by `f` -/
structure Moves (f : Nat → Nat) (body body' : List Instr) : Prop where
  mono : ∀ x y, f x ≤ f y ↔ x ≤ y
  zero : f 0 = 0
  len : body'.length = f body.length
  get : ∀ (pc : Nat) (i : Instr), body[pc]? = some i → body'[f pc]? = some (i.ren f)
  next : ∀ (pc : Nat) (i : Instr), body[pc]? = some i → stops i = false → i ≠ .nop → f (pc + 1) = f pc + 1

theorem poll_ren (E E' : Env) (f : Nat → Nat) (ha : E'.atomics = E.atomics) (hw : E'.hasWasi = E.hasWasi) (ht : E'.trig = E.trig)
    (d : DState) : poll E' (d.ren f) = ((poll E d).1, (poll E d).2.ren f) := by
  unfold poll
  rw [ha, hw, ht]
  have e1 : (d.ren f).enable = d.enable := rfl
  have e2 : (d.ren f).counter = d.counter := rfl
  have e3 : (d.ren f).looks = d.looks := rfl
  rw [e1, e2, e3]
  split
  · rfl
  · split
    · rfl
    · simp only
      split
      · rfl
      · split <;> rfl

/-- the same settings, programs with the same signatures -/
structure SameEnv (E E' : Env) : Prop where
  H : E'.H = E.H
  atomics : E'.atomics = E.atomics
  hasWasi : E'.hasWasi = E.hasWasi
  trig : E'.trig = E.trig
  sig : SameSig E.P E'.P

theorem Moves.step {E E' : Env} (hE : SameEnv E E') {f : Nat → Nat} {body body' : List Instr} (hm : Moves f body body') {s : VM}
    (hl : StandsAt body s) {i : Instr} (hi : body[s.pc]? = some i) :
    Model.step E'.H E'.P body'.length (s.ren f) (i.ren f) = (Model.step E.H E.P body.length s i).rmap (Out.ren f) := by
  rw [hE.H]
  exact step_ren hE.sig hm.len (fun h => hm.next _ _ hi h (fun e => hl.alive (by rw [hi, e]))) hm.mono

theorem StandsAt.at_end {code : List Instr} (hc : Made code) {s : VM} (h : StandsAt code s) (hn : code[s.pc]? = none) :
    s.pc = code.length ∧ ∃ l, s.labels = [l] := by
  have hlen : s.pc = code.length := by
    have := List.getElem?_eq_none_iff.mp hn
    have := h.pc
    omega
  refine ⟨hlen, ?_⟩
  have hl := labelsAt_length h.labels
  rw [hlen, hc.routed.stop] at hl
  match hd : s.labels, hl with
  | [l], _ => exact ⟨l, rfl⟩

theorem loop_ren {E E' : Env} (hE : SameEnv E E') {f : Nat → Nat} {body body' : List Instr} (hc : Made body)
    (hm : Moves f body body') : ∀ (n : Nat) (d : DState), StandsAt body d.vm →
      loopRun E' body' n (d.ren f) = (loopRun E body n d).map (Res.rmap (Final.ren f))
  | 0, _, _ => rfl
  | n + 1, d, hl => by
    rw [loopRun, loopRun, poll_ren E E' f hE.atomics hE.hasWasi hE.trig]
    cases hp : poll E d with
    | mk b d1 =>
      have hvm := poll_vm' hp
      rw [← hvm] at hl
      cases b with
      | true => rfl
      | false =>
        simp only
        cases hi : body[d1.vm.pc]? with
        | none =>
          obtain ⟨h1, l, h2⟩ := hl.at_end hc hi
          have h3 : body'[(d1.ren f).vm.pc]? = none := by
            rw [List.getElem?_eq_none_iff, hm.len, show (d1.ren f).vm.pc = f d1.vm.pc from rfl, h1]
            exact Nat.le_refl _
          have h4 : (d1.ren f).vm.labels = [l.ren f] := by
            rw [show (d1.ren f).vm.labels = d1.vm.labels.map (Label.ren f) from rfl, h2]; rfl
          rw [h3, h4, h2]
          rfl
        | some i =>
          have h3 : body'[(d1.ren f).vm.pc]? = some (i.ren f) := hm.get _ _ hi
          rw [h3]
          simp only
          rw [show (d1.ren f).vm = d1.vm.ren f from rfl, hm.step hE hl hi]
          cases hst : Model.step E.H E.P body.length d1.vm i with
          | ok o =>
            cases o with
            | cont vm => exact loop_ren hE hc hm n { d1 with vm := vm } (hl.step hc hi hst)
            | yield y vm => rfl
          | _ => rfl

theorem tco_ren {E E' : Env} (hE : SameEnv E E') {f : Nat → Nat} {body body' : List Instr} (hc : Made body)
    (hm : Moves f body body') : ∀ (n : Nat) (d : DState), StandsAt body d.vm →
      tcoChain E' body' n (d.ren f) = (tcoChain E body n d).map (Res.rmap (Final.ren f))
  | 0, _, _ => rfl
  | n + 1, d, hl => by
    rw [tcoChain, tcoChain]
    cases hi : body[d.vm.pc]? with
    | none =>
      obtain ⟨h1, l, h2⟩ := hl.at_end hc hi
      have h0 : (d.ren f).vm.pc = body'.length := by rw [hm.len, show (d.ren f).vm.pc = f d.vm.pc from rfl, h1]
      have h3 : body'[(d.ren f).vm.pc]? = none := by
        rw [List.getElem?_eq_none_iff, h0]
        exact Nat.le_refl _
      rw [h3]
      simp only [h0, h1, if_true]
      rfl
    | some i =>
      have h3 : body'[(d.ren f).vm.pc]? = some (i.ren f) := hm.get _ _ hi
      rw [h3]
      simp only
      rw [show (d.ren f).vm = d.vm.ren f from rfl, hm.step hE hl hi]
      cases hst : Model.step E.H E.P body.length d.vm i with
      | ok o =>
        cases o with
        | cont vm =>
          simp only [Res.rmap, Out.ren]
          rw [show ({ d.ren f with vm := vm.ren f } : DState) = ({ d with vm := vm } : DState).ren f from rfl,
            poll_ren E E' f hE.atomics hE.hasWasi hE.trig]
          cases hp : poll E { d with vm := vm } with
          | mk b d1 =>
            have hvm := poll_vm' hp
            have hl1 := hl.step hc hi hst
            cases b with
            | true => rfl
            | false => exact tco_ren hE hc hm n d1 (by rw [hvm]; exact hl1)
        | yield y vm => rfl
      | _ => rfl

theorem tcoRun_ren {E E' : Env} (hE : SameEnv E E') {f : Nat → Nat} {body body' : List Instr} (hc : Made body)
    (hm : Moves f body body') (n : Nat) (d : DState) (hl : StandsAt body d.vm) :
      tcoRun E' body' n (d.ren f) = (tcoRun E body n d).map (Res.rmap (Final.ren f)) := by
  rw [tcoRun, tcoRun, poll_ren E E' f hE.atomics hE.hasWasi hE.trig]
  cases hp : poll E d with
  | mk b d1 =>
    have hvm := poll_vm' hp
    rw [← hvm] at hl
    cases b with
    | true => rfl
    | false =>
      simp only
      have : body'.length ≤ (d1.ren f).vm.pc ↔ body.length ≤ d1.vm.pc := by
        rw [hm.len]; exact hm.mono _ _
      by_cases h : body.length ≤ d1.vm.pc
      · rw [if_pos h, if_pos (this.2 h)]; rfl
      · rw [if_neg h, if_neg (fun x => h (this.1 x))]
        exact tco_ren hE hc hm n d1 hl

end Verif.Lemmas
