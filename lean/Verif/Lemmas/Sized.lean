import Verif.Lemmas.CompFits
import Verif.Props.Resume
import Verif.Props.Programs
/-
Everything a checkpoint of a preprocessed program contains fits the types it is written with: program counters, result
registers, register window starts.
-/
namespace Verif.Lemmas
open Verif.Model Verif.Spec Verif.Props

theorem cap8_len {rs rs' : List Reg} (h : cap8 rs = .ok rs') : rs' = rs ∧ rs.length ≤ 8 := by
  unfold cap8 at h
  split at h
  · rename_i hl; cases h; exact ⟨rfl, hl⟩
  · cases h

theorem step_retRegs {H : FloatHost} {P : Prog} {len : Nat} {s : VM} {i : Instr} {o : Out} (h : step H P len s i = .ok o) :
    o.vm.retRegs = s.retRegs ∨ (o.vm.retRegs = stored i ∧ (stored i).length ≤ 8) := by
  cases i <;> simp only [step, Res.bind_eq_ok, Res.pure_eq, Res.ok_inj, reduceCtorEq] at h
  case op1 op dst src => obtain ⟨_, _, _, _, s1, hw, rfl⟩ := h; exact .inl (VM.write_frame hw).2.2.2.2
  case op2 op dst x y => obtain ⟨_, _, _, _, _, _, s1, hw, rfl⟩ := h; exact .inl (VM.write_frame hw).2.2.2.2
  case load => obtain ⟨_, _, _, _, _, _, s1, hw, rfl⟩ := h; exact .inl (VM.write_frame hw).2.2.2.2
  case store => obtain ⟨_, _, _, _, m, hm, m', hs, rfl⟩ := h; exact .inl rfl
  case memSize => obtain ⟨_, _, _, hs, rfl⟩ := h; exact .inl rfl
  case memGrow => obtain ⟨m, hm, d, _, ⟨r, m'⟩, hg, rf, hs, rfl⟩ := h; exact .inl rfl
  case memCopy => obtain ⟨m, hm, _, _, _, _, _, _, m', hs, rfl⟩ := h; exact .inl rfl
  case memInit =>
    obtain ⟨m, hm, h⟩ := h
    split at h
    · cases h
    · simp only [Res.bind_eq_ok, Res.ok_inj] at h
      obtain ⟨_, _, _, _, _, _, m', hs, rfl⟩ := h
      exact .inl rfl
  case memFill => obtain ⟨m, hm, _, _, _, _, _, _, m', hs, rfl⟩ := h; exact .inl rfl
  case select => obtain ⟨_, _, _, _, _, hs, rfl⟩ := h; exact .inl rfl
  case globalGet =>
    split at h
    · cases h
    · simp only [Res.bind_eq_ok, Res.ok_inj] at h
      obtain ⟨s1, hw, rfl⟩ := h
      exact .inl (VM.write_frame hw).2.2.2.2
  case globalSet => obtain ⟨_, _, gs, hg, rfl⟩ := h; exact .inl rfl
  case refLocalGet =>
    split at h
    · cases h
    · split at h
      · simp only [Res.bind_eq_ok, Res.ok_inj] at h
        obtain ⟨_, hs, rfl⟩ := h; exact .inl rfl
      · cases h; exact .inl rfl
  case refLocalSet => obtain ⟨_, _, s1, hw, rfl⟩ := h; exact .inl (VM.write_frame hw).2.2.2.2
  case refNull => obtain ⟨_, hs, rfl⟩ := h; exact .inl rfl
  case refIsNull => obtain ⟨_, _, _, hs, rfl⟩ := h; exact .inl rfl
  case tableGet =>
    split at h
    · cases h
    · simp only [Res.bind_eq_ok] at h
      obtain ⟨_, _, h⟩ := h
      split at h
      · cases h
      · simp only [Res.bind_eq_ok, Res.ok_inj] at h
        obtain ⟨_, hs, rfl⟩ := h; exact .inl rfl
  case callWasi => obtain ⟨_, _, rfl⟩ := h; exact .inl rfl
  case callIndirect =>
    obtain ⟨_, _, h⟩ := h
    repeat' split at h
    all_goals (try cases h)
    all_goals
      simp only [Res.bind_eq_ok, Res.ok_inj] at h
      obtain ⟨_, _, _, _, rfl⟩ := h; exact .inl rfl
  case call =>
    split at h
    · cases h
    · simp only [Res.bind_eq_ok, Res.ok_inj] at h
      obtain ⟨_, _, _, _, rfl⟩ := h; exact .inl rfl
  case ret => obtain ⟨_, h8, rfl⟩ := h; exact .inr (cap8_len h8)
  case jump t => subst h; exact .inl rfl
  case block => subst h; exact .inl rfl
  case ite c t e =>
    obtain ⟨_, _, h⟩ := h
    split at h
    · cases h; exact .inl rfl
    · split at h <;> cases h <;> exact .inl rfl
  case fin src dst =>
    split at h
    · simp only [Res.bind_eq_ok, Res.ok_inj] at h
      obtain ⟨_, h8, rfl⟩ := h; exact .inr (cap8_len h8)
    · simp only [Res.bind_eq_ok] at h
      obtain ⟨_, hc, h⟩ := h
      split at h
      · simp only [Res.bind_eq_ok, Res.ok_inj] at h
        obtain ⟨_, h8, rfl⟩ := h; exact .inr (cap8_len h8)
      · cases h; exact .inl rfl
  case br => obtain ⟨s1, hb, rfl⟩ := h; exact .inl (VM.branch_pc hb).2.2.2.2.2
  case brIf =>
    obtain ⟨_, _, h⟩ := h
    split at h
    · cases h; exact .inl rfl
    · simp only [Res.bind_eq_ok, Res.ok_inj] at h
      obtain ⟨s1, hb, rfl⟩ := h; exact .inl (VM.branch_pc hb).2.2.2.2.2
  case brTable ts d idx src => obtain ⟨v, _, s1, hb, rfl⟩ := h; exact .inl (VM.branch_pc hb).2.2.2.2.2
  case nop => subst h; exact .inl rfl

  case dataDrop => subst h; exact .inl rfl
  case tableSet =>
    split at h
    · cases h
    · simp only [Res.bind_eq_ok] at h
      obtain ⟨_, _, _, _, h⟩ := h
      split at h
      · cases h; exact .inl rfl
      · cases h
  case tableFill =>
    split at h
    · cases h
    · simp only [Res.bind_eq_ok, Res.ok_inj] at h
      obtain ⟨_, _, _, _, _, _, _, _, rfl⟩ := h
      exact .inl rfl

/-- the registers a call hands to the machine -/
theorem step_invoke {H : FloatHost} {P : Prog} {len : Nat} {s s' : VM} {i : Instr} {g : Nat} {ps : List Val} {rs : List Reg}
    (h : step H P len s i = .ok (.yield (.invoke g ps rs) s')) : rs = stored i ∧ rs.length ≤ 8 := by
  cases i <;> simp only [step, Res.bind_eq_ok, Res.pure_eq, Res.ok_inj, VM.next, reduceCtorEq, and_false, exists_false,
    Out.yield.injEq, false_and] at h
  case memInit =>
    obtain ⟨_, _, h⟩ := h
    split at h
    · cases h
    · simp [Res.bind_eq_ok] at h
  case globalGet => split at h <;> simp [Res.bind_eq_ok] at h
  case refLocalGet =>
    split at h
    · cases h
    · split at h <;> simp [Res.bind_eq_ok] at h
  case tableGet =>
    split at h
    · cases h
    · simp only [Res.bind_eq_ok] at h
      obtain ⟨_, _, h⟩ := h
      split at h
      · cases h
      · simp [Res.bind_eq_ok] at h
  case tableSet =>
    split at h
    · cases h
    · simp only [Res.bind_eq_ok] at h
      obtain ⟨_, _, _, _, h⟩ := h
      split at h <;> cases h
  case tableFill =>
    split at h
    · cases h
    · simp [Res.bind_eq_ok] at h
  case callIndirect =>
    obtain ⟨_, _, h⟩ := h
    repeat' split at h
    all_goals (try cases h)
    all_goals
      simp only [Res.bind_eq_ok, Res.ok_inj, Out.yield.injEq, Yield.invoke.injEq] at h
      obtain ⟨_, _, _, h8, ⟨_, _, rfl⟩, _⟩ := h
      obtain ⟨rfl, h8⟩ := cap8_len h8
      exact ⟨rfl, h8⟩
  case call =>
    split at h
    · cases h
    · simp only [Res.bind_eq_ok, Res.ok_inj, Out.yield.injEq, Yield.invoke.injEq] at h
      obtain ⟨_, _, _, h8, ⟨_, _, rfl⟩, _⟩ := h
      obtain ⟨rfl, h8⟩ := cap8_len h8
      exact ⟨rfl, h8⟩
  case ite =>
    obtain ⟨_, _, h⟩ := h
    split at h
    · cases h
    · split at h <;> cases h
  case fin =>
    split at h
    · simp [Res.bind_eq_ok] at h
    · simp only [Res.bind_eq_ok] at h
      obtain ⟨_, _, h⟩ := h
      split at h
      · simp [Res.bind_eq_ok] at h
      · cases h
  case brIf =>
    obtain ⟨_, _, h⟩ := h
    split at h <;> simp [Res.bind_eq_ok] at h

/-- the registers fit an `ArrayVec` of eight and are `u16` each -/
structure RegsFit (rs : List Reg) : Prop where
  len : rs.length ≤ 8
  fits : ∀ r ∈ rs, r.Fits

theorem RegsFit.nil : RegsFit [] := ⟨by decide, nofun⟩

/-- program counters of a label lie in the body -/
structure LabelIn (len : Nat) (l : Label) : Prop where
  ip : l.ip ≤ len
  returnIp : l.returnIp ≤ len

/-- the state stands properly in the body -/
structure VOk (len : Nat) (l : Nat → Nat) (s : VM) : Prop where
  pc : s.pc ≤ len
  count : s.labels.length = l s.pc
  labels : ∀ x ∈ s.labels, LabelIn len x
  ret : RegsFit s.retRegs

/-- what a dispatcher call that goes on later yields -/
def YOk (y : Yield) : Prop := ∀ g ps rs, y = .invoke g ps rs → RegsFit rs

/-- the body's instructions leave small registers in frames -/
def SmallRegs (code : List Instr) : Prop := ∀ i ∈ code, ∀ r ∈ stored i, r.idx < 2 ^ 16

theorem flow_labels {len pc : Nat} {ls : List Label} {i : Instr} (hpc : pc < len) (ht : ∀ t ∈ i.targets, t ≤ len)
    (hl : ∀ x ∈ ls, LabelIn len x) {q : Nat × List Label} (h : q ∈ flow len pc ls i) : ∀ x ∈ q.2, LabelIn len x := by
  have cutOk : ∀ d, ∀ x ∈ cut d ls, LabelIn len x := fun d x hx => hl x (List.mem_of_mem_drop hx)
  have tailOk : ∀ x ∈ ls.tail, LabelIn len x := fun x hx => hl x (List.mem_of_mem_tail hx)
  cases i
  case jump t =>
    simp only [flow, List.mem_singleton] at h; subst h
    simp only; split
    · exact tailOk
    · exact hl
  case block l =>
    simp only [flow, List.mem_singleton] at h; subst h
    intro x hx
    rcases List.mem_cons.mp hx with rfl | hx
    · exact ⟨hpc, hpc⟩
    · exact hl x hx
  case ite c t e =>
    have htl := ht t (by simp [Instr.targets])
    simp only [flow, List.mem_cons, List.not_mem_nil, or_false] at h
    rcases h with rfl | h
    · intro x hx
      rcases List.mem_cons.mp hx with rfl | hx
      · exact ⟨hpc, htl⟩
      · exact hl x hx
    · split at h
      · subst h
        intro x hx
        rcases List.mem_cons.mp hx with rfl | hx
        · exact ⟨htl, htl⟩
        · exact hl x hx
      · subst h; exact hl
  case fin s d =>
    simp only [flow] at h
    split at h
    · simp only [List.mem_singleton] at h; subst h; exact hl
    · split at h <;> (simp only [List.mem_singleton] at h; subst h; exact tailOk)
  case br d t _ _ => simp only [flow, List.mem_singleton] at h; subst h; exact cutOk _
  case brIf d t _ _ _ =>
    simp only [flow, List.mem_cons, List.not_mem_nil, or_false] at h
    rcases h with rfl | rfl
    · exact hl
    · exact cutOk _
  case brTable ts d _ _ =>
    simp only [flow, List.mem_cons, List.mem_map] at h
    rcases h with rfl | ⟨t, _, rfl⟩
    · exact cutOk _
    · exact cutOk _
  all_goals
    first
    | (simp only [flow, List.not_mem_nil] at h; done)
    | (simp only [flow, List.mem_singleton] at h; subst h; exact hl)

theorem step_vok {H : FloatHost} {P : Prog} {code : List Instr} {l : Nat → Nat} (hs : Shaped code l) (hm : SmallRegs code) {s : VM}
    {i : Instr} {o : Out} (hi : code[s.pc]? = some i) (hv : VOk code.length l s) (h : step H P code.length s i = .ok o) :
    (∀ s', o = .cont s' → VOk code.length l s') ∧ ∀ y s', o = .yield y s' → (y ≠ .ret → VOk code.length l s') ∧ YOk y := by
  have hlt := (List.getElem?_eq_some_iff.mp hi).1
  have hmem := List.mem_of_getElem? hi
  have hret : RegsFit o.vm.retRegs := by
    rcases step_retRegs h with e | ⟨e, e8⟩
    · rw [e]; exact hv.ret
    · rw [e]; exact ⟨e8, hm i hmem⟩
  constructor
  · rintro s' rfl
    refine ⟨step_pc hlt (hs.inside i hmem) h, hs.nested.next _ _ hi _ hv.count _ (step_flow h), ?_, hret⟩
    exact flow_labels hlt (hs.inside i hmem) hv.labels (step_flow h)
  · rintro y s' rfl
    refine ⟨fun hy => ?_, ?_⟩
    · rcases step_yield h with h1 | ⟨h1, h2, h3⟩
      · exact absurd h1 hy
      · refine ⟨by rw [h2]; exact hlt, by rw [h2, h3, hv.count, hs.call _ _ hi h1], by rw [h3]; exact hv.labels, hret⟩
    · rintro g ps rs rfl
      obtain ⟨rfl, h8⟩ := step_invoke h
      exact ⟨h8, hm i hmem⟩

/-- how a dispatcher call may end -/
def FinOk (len : Nat) (l : Nat → Nat) : Final → Prop
  | .halt _ => True
  | .ckpt d => VOk len l d.vm
  | .yield y d => (y ≠ .ret → VOk len l d.vm) ∧ YOk y

theorem loop_vok {E : Env} {code : List Instr} {l : Nat → Nat} (hs : Shaped code l) (hm : SmallRegs code) :
    ∀ (n : Nat) (d : DState) (fin : Final), VOk code.length l d.vm → loopRun E code n d = some (.ok fin) →
    FinOk code.length l fin
  | 0, _, _, _, h => by simp [loopRun] at h
  | n + 1, d, fin, hv, h => by
    rw [loopRun] at h
    split at h
    · rename_i d1 hd
      cases h; show VOk _ _ d1.vm; rw [poll_vm' hd]; exact hv
    · rename_i d1 hd
      rw [← poll_vm' hd] at hv
      split at h
      · rename_i hc
        have hlen : d1.vm.pc = code.length := by
          have := List.getElem?_eq_none_iff.mp hc
          have := hv.pc
          omega
        have hl := hv.count
        rw [hlen, hs.nested.stop] at hl
        split at h
        · rename_i a b c hd; rw [hd] at hl; simp at hl
        · cases h; trivial
      · rename_i i hi
        split at h
        · rename_i vm hst
          exact loop_vok hs hm n _ fin ((step_vok hs hm hi hv hst).1 _ rfl) h
        · rename_i y vm hst
          cases h; exact (step_vok hs hm hi hv hst).2 _ _ rfl
        all_goals cases h

theorem chain_vok {E : Env} {code : List Instr} {l : Nat → Nat} (hs : Shaped code l) (hm : SmallRegs code) :
    ∀ (n : Nat) (d : DState) (fin : Final), VOk code.length l d.vm → tcoChain E code n d = some (.ok fin) →
    FinOk code.length l fin
  | 0, _, _, _, h => by simp [tcoChain] at h
  | n + 1, d, fin, hv, h => by
    rw [tcoChain] at h
    split at h
    · split at h
      · cases h; trivial
      · cases h
    · rename_i i hi
      split at h
      · rename_i vm hst
        have h1 : VOk code.length l vm := (step_vok hs hm hi hv hst).1 _ rfl
        split at h
        · rename_i d1 hd; cases h; show VOk _ _ d1.vm; rw [poll_vm' hd]; exact h1
        · rename_i d1 hd; exact chain_vok hs hm n d1 fin (by rw [poll_vm' hd]; exact h1) h
      · rename_i y vm hst
        cases h; exact (step_vok hs hm hi hv hst).2 _ _ rfl
      all_goals cases h

theorem disp_vok {E : Env} {D : Dispatcher} (hD : IsD E D) {code : List Instr} {l : Nat → Nat} (hs : Shaped code l)
    (hm : SmallRegs code) {n : Nat} {d : DState} {fin : Final} (hv : VOk code.length l d.vm)
    (h : D n code d = some (.ok fin)) : FinOk code.length l fin := by
  cases hD with
  | loop => exact loop_vok hs hm n d fin hv h
  | tco =>
    simp only [tcoD, tcoRun] at h
    split at h
    · rename_i d1 hd; cases h; show VOk _ _ d1.vm; rw [poll_vm' hd]; exact hv
    · rename_i d1 hd
      have h1 : VOk code.length l d1.vm := by rw [poll_vm' hd]; exact hv
      split at h
      · cases h; trivial
      · exact chain_vok hs hm n d1 fin h1 h

/-- a frame whose content fits the types it is written with -/
structure FOk (P : Prog) (L : Nat → Nat → Nat) (f : Frame) : Prop where
  pc : f.at ≤ (P.body f.func).length
  count : f.labels.length = L f.func f.at
  labels : ∀ x ∈ f.labels, LabelIn (P.body f.func).length x
  ret : RegsFit f.retRegs
  res : RegsFit f.resultRegs
  n : f.n < 2 ^ 32
  known : ∃ t code, P.funcs[f.func]? = some (.runtime t code)

theorem FOk.enter {S : Wasi} {P : Prog} {L : Nat → Nat → Nat} {f : Frame} (h : FOk P L f) (m : Machine S) :
    VOk (P.body f.func).length (L f.func) (m.enter f).vm := ⟨h.pc, h.count, h.labels, h.ret⟩

theorem FOk.leave {P : Prog} {L : Nat → Nat → Nat} (hL : ShapedP P L) {f : Frame} {d : DState} (hf : FOk P L f)
    (h : VOk (P.body f.func).length (L f.func) d.vm) {rs : List Reg} (hr : RegsFit rs) :
    FOk P L { f with
      locals := d.vm.locals
      labels := match d.vm.labels with | [] => [] | l :: ls => { l with ip := d.vm.pc } :: ls
      resultRegs := rs
      retRegs := d.vm.retRegs
      memPtr := d.vm.memPtr } := by
  match hd : d.vm.labels with
  | [] =>
    have h2 := h.count
    rw [hd] at h2
    have := (hL f.func).pos d.vm.pc
    simp at h2; omega
  | l :: ls =>
    have h2 := h.count
    rw [hd] at h2
    refine ⟨h.pc, h2, ?_, h.ret, hr, hf.n, hf.known⟩
    intro x hx
    have h3 := h.labels
    rw [hd] at h3
    rcases List.mem_cons.mp hx with rfl | hx
    · exact ⟨h.pc, (h3 l List.mem_cons_self).returnIp⟩
    · exact h3 x (List.mem_cons_of_mem _ hx)

/-- windows lie one above the other inside the register banks -/
structure RfOk (r : RegFile) : Prop where
  cached : ∀ c, r.cached c ≤ (r.regs c).length
  inside : ∀ o ∈ r.frames, ∀ c, o c ≤ (r.regs c).length
  order : r.frames.Pairwise fun a b => ∀ c, b c ≤ a c

theorem RfOk.writes {r r' : RegFile} (h : RfOk r) (k : Writes r r') : RfOk r' := by
  have s := k.shape
  exact ⟨fun c => by rw [s.cached, s.len]; exact h.cached c, fun o ho c => by rw [s.frames] at ho; rw [s.len]; exact h.inside o ho c,
    by rw [s.frames]; exact h.order⟩

theorem RfOk.save {r : RegFile} (h : RfOk r) (a : Cls → Nat) : RfOk (r.saveOffsets a) := by
  refine ⟨fun c => by simp [RegFile.saveOffsets], fun o ho c => ?_, ?_⟩
  · simp only [RegFile.saveOffsets, List.length_append] at ho ⊢
    rcases List.mem_cons.mp ho with rfl | ho
    · exact Nat.le_add_right _ _
    · have := h.inside o ho c; omega
  · simp only [RegFile.saveOffsets]
    exact List.pairwise_cons.mpr ⟨fun o ho c => h.inside o ho c, h.order⟩

theorem RfOk.enter {r : RegFile} (h : RfOk r) : ∀ a, RfOk (enterRegs r a)
  | some a => h.save a
  | none => h

theorem RfOk.restore {r : RegFile} (h : RfOk r) : RfOk r.restoreOffsets := by
  unfold RegFile.restoreOffsets
  split
  · exact ⟨fun _ => Nat.zero_le _, h.inside, h.order⟩
  · rename_i off rest hr
    have ho := h.order
    rw [hr] at ho
    have hp := List.pairwise_cons.mp ho
    have hin := h.inside
    rw [hr] at hin
    have key : ∀ o ∈ rest, ∀ c, o c ≤ ((r.regs c).take (off c)).length := by
      intro o ho c
      rw [List.length_take]
      have h1 := hp.1 o ho c
      have h2 := hin o (List.mem_cons_of_mem _ ho) c
      omega
    refine ⟨?_, key, hp.2⟩
    intro c
    cases rest with
    | nil => exact Nat.zero_le _
    | cons o _ => exact key o List.mem_cons_self c

theorem RfOk.empty : RfOk RegFile.empty := ⟨fun _ => Nat.zero_le _, nofun, List.Pairwise.nil⟩

/-- the machine's content fits the types it is written with -/
structure SizedM {S : Wasi} (P : Prog) (L : Nat → Nat → Nat) (m : Machine S) : Prop where
  frames : ∀ f ∈ m.frames, FOk P L f
  rf : RfOk m.rf

/-- function types have fewer than 2^32 results -/
def SmallTypes (P : Prog) : Prop :=
  ∀ (f : Nat) (t : FuncType) (code : Code), P.funcs[f]? = some (FuncInst.runtime t code) → t.results.length < 2 ^ 32

theorem newFrame_ok {P : Prog} {L : Nat → Nat → Nat} (hL : ShapedP P L) (hT : SmallTypes P) {i : Inst} {f : Nat} {t : FuncType}
    {code : Code} (hf : P.funcs[f]? = some (.runtime t code)) (ls : List Val) (en : Bool) : FOk P L (newFrame i f t ls en) := by
  refine ⟨Nat.zero_le _, ?_, ?_, .nil, .nil, hT f t code hf, t, code, hf⟩
  · have h := (hL f).zero
    simp only [newFrame, List.length_singleton, Frame.at, List.head?_cons, Option.map_some, Option.getD_some]
    exact h.symm
  · intro x hx
    simp only [newFrame, List.mem_singleton] at hx
    subst hx
    exact ⟨Nat.zero_le _, Nat.zero_le _⟩

theorem sized_round {S : Wasi} {E : Env} {L : Nat → Nat → Nat} (hL : ShapedP E.P L) (hT : SmallTypes E.P)
    (hR : ∀ f, SmallRegs (E.P.body f)) {D : Dispatcher} (hD : IsD E D) {en : Bool} {n : Nat} {m : Machine S}
    {r : Round S} (h : m.round E D en n = some (.ok r)) (hm : SizedM E.P L m) : SizedM E.P L r.m := by
  rcases round_inv hD h with ⟨hf, rfl⟩ | ⟨f, fs, fin, hfr, hd, hk, hre⟩
  · exact hm
  · have hf := hm.frames f (by rw [hfr]; exact List.mem_cons_self)
    have hrest : ∀ g ∈ fs, FOk E.P L g := fun g hg => hm.frames g (by rw [hfr]; exact List.mem_cons_of_mem _ hg)
    have hfin := disp_vok hD (hL f.func) (hR f.func) (hf.enter m) hd
    have hrf : RfOk fin.d.vm.rf := hm.rf.writes hk.writes
    have key : ∀ d : DState, VOk (E.P.body f.func).length (L f.func) d.vm → RfOk d.vm.rf → SizedM E.P L (m.leave f d) := by
      intro d hv hr
      refine ⟨?_, hr⟩
      intro g hg
      rw [leave_frames hfr] at hg
      rcases List.mem_cons.mp hg with rfl | hg
      · exact hf.leave hL hv hf.res
      · exact hrest g hg
    have ret : ∀ d : DState, RfOk d.vm.rf → (m.leave f d).doReturn = .ok r → SizedM E.P L r.m := by
      intro d hr h
      unfold Machine.doReturn at h
      rw [leave_frames hfr] at h
      simp only at h
      split at h
      · simp only [Res.bind_eq_ok, Res.pure_eq, Res.ok_inj] at h
        obtain ⟨_, _, rfl⟩ := h
        exact ⟨nofun, hr.restore⟩
      · simp only [Res.bind_eq_ok, Res.pure_eq, Res.ok_inj] at h
        obtain ⟨_, _, rf, hs, rfl⟩ := h
        refine ⟨?_, hr.restore.writes (Writes.setVals hs)⟩
        intro g hg
        rcases List.mem_cons.mp hg with rfl | hg
        · have h := hrest _ List.mem_cons_self
          exact ⟨h.pc, h.count, h.labels, h.ret, .nil, h.n, h.known⟩
        · exact hrest g (List.mem_cons_of_mem _ hg)
    cases fin with
    | ckpt d => simp only [Machine.react, Res.ok_inj] at hre; subst hre; exact key d hfin hrf
    | halt d => exact ret d hrf hre
    | yield y d =>
      cases y with
      | ret => exact ret d hrf hre
      | invoke g ps rs =>
        have hv := hfin.1 nofun
        simp only [Machine.react, Machine.doInvoke] at hre
        split at hre
        · rename_i t code hg
          simp only [Res.bind_eq_ok, Res.pure_eq, Res.ok_inj] at hre
          obtain ⟨_, _, rfl⟩ := hre
          refine ⟨?_, RfOk.enter hrf _⟩
          intro x hx
          simp only [Round.m, leave_frames hfr] at hx
          rcases List.mem_cons.mp hx with rfl | hx
          · exact newFrame_ok hL hT hg _ _
          · rcases List.mem_cons.mp hx with rfl | hx
            · exact hf.leave hL hv (hfin.2 _ _ _ rfl)
            · exact hrest x hx
        · cases hre
        · cases hre
      | wasi id ps reg =>
        have hv := hfin.1 nofun
        have hsz := key d hv hrf
        simp only [Machine.react, Machine.doWasi] at hre
        split at hre
        · simp only [Res.bind_eq_ok] at hre
          obtain ⟨⟨o, w⟩, hc, hre⟩ := hre
          cases o with
          | none => cases hre
          | some res =>
            simp only at hre
            split at hre
            · simp only [Res.bind_eq_ok, Res.pure_eq, Res.ok_inj] at hre
              obtain ⟨rf, hs, rfl⟩ := hre
              exact ⟨hsz.frames, RfOk.writes (r := d.vm.rf) hrf (Writes.setVal hs)⟩
            · cases hre; exact ⟨hsz.frames, hsz.rf⟩
        · cases hre

theorem SizedM.setFirst {S : Wasi} {P : Prog} {L : Nat → Nat → Nat} {m : Machine S} (en : Bool) (h : SizedM P L m) :
    SizedM P L { m with frames := setFirstEnable en m.frames } := by
  refine ⟨?_, h.rf⟩
  have := h.frames
  generalize m.frames = fs at this
  intro f hf
  induction fs with
  | nil => cases hf
  | cons g gs ih =>
    cases gs with
    | nil =>
      simp only [setFirstEnable, List.mem_singleton] at hf
      subst hf
      have h := this g List.mem_cons_self
      exact ⟨h.pc, h.count, h.labels, h.ret, h.res, h.n, h.known⟩
    | cons g2 gs =>
      simp only [setFirstEnable] at hf
      rcases List.mem_cons.mp hf with rfl | hf
      · exact this _ List.mem_cons_self
      · exact ih (fun x hx => this x (List.mem_cons_of_mem _ hx)) hf

theorem new_sized {S : Wasi} {P : Prog} {L : Nat → Nat → Nat} (hL : ShapedP P L) (hT : SmallTypes P) {i : Inst} {w : S.W} {f : Nat}
    {ps : List Val} {m : Machine S} (h : Machine.new P i w f ps = .ok m) : SizedM P L m := by
  unfold Machine.new at h
  split at h
  · rename_i t code hf
    split at h
    · cases h
    · cases h
      refine ⟨?_, RfOk.empty.enter _⟩
      intro g hg
      simp only [List.mem_singleton] at hg
      subst hg
      exact newFrame_ok hL hT hf _ _
  · cases h

/-! ### lengths are bounded by the length of the file -/

theorem cat_le {xs : List (Option (List Byte))} {b : List Byte} (h : cat xs = some b) :
    ∀ x ∈ xs, ∃ a, x = some a ∧ a.length ≤ b.length := by
  induction xs generalizing b with
  | nil => nofun
  | cons y ys ih =>
    obtain ⟨a, c, ha, hc, rfl⟩ := cat_cons h
    intro x hx
    rcases List.mem_cons.mp hx with rfl | hx
    · exact ⟨a, ha, by simp⟩
    · obtain ⟨a', h1, h2⟩ := ih hc x hx
      exact ⟨a', h1, by rw [List.length_append]; omega⟩

theorem putAll_le {α : Type} {e : α → Option (List Byte)} (he : ∀ x b, e x = some b → 1 ≤ b.length) :
    ∀ {xs : List α} {b : List Byte}, putAll e xs = some b → xs.length ≤ b.length ∧ ∀ x ∈ xs, ∃ a, e x = some a ∧ a.length ≤ b.length
  | [], b, h => ⟨Nat.zero_le _, nofun⟩
  | x :: xs, b, h => by
    simp only [putAll, Option.bind_eq_bind, Option.bind_eq_some_iff, Option.some.injEq] at h
    obtain ⟨a, ha, c, hc, rfl⟩ := h
    have h1 := putAll_le he hc
    have h2 := he x a ha
    refine ⟨by rw [List.length_append, List.length_cons]; omega, ?_⟩
    intro y hy
    rcases List.mem_cons.mp hy with rfl | hy
    · exact ⟨a, ha, by simp⟩
    · obtain ⟨a', h3, h4⟩ := h1.2 y hy
      exact ⟨a', h3, by rw [List.length_append]; omega⟩

theorem putVec_le {α : Type} {e : α → Option (List Byte)} (he : ∀ x b, e x = some b → 1 ≤ b.length) {xs : List α} {b : List Byte}
    (h : putVec e xs = some b) : xs.length ≤ b.length ∧ ∀ x ∈ xs, ∃ a, e x = some a ∧ a.length ≤ b.length := by
  obtain ⟨a, ha, hl⟩ := cat_le h (putAll e xs) (by simp)
  have := putAll_le he ha
  exact ⟨by omega, fun x hx => by obtain ⟨a', h1, h2⟩ := this.2 x hx; exact ⟨a', h1, by omega⟩⟩

theorem putU_pos {n x : Nat} (hn : 1 ≤ n) {b : List Byte} (h : putU n x = some b) : 1 ≤ b.length := by
  simp only [putU, Option.some.injEq] at h
  subst h
  rw [toLE_length]; exact hn

theorem putCarrier_pos : ∀ (c : Cls) (x : c.Carrier) (b : List Byte), putCarrier c x = some b → 1 ≤ b.length
  | .i32, _, _, h => putU_pos (by decide) h
  | .i64, _, _, h => putU_pos (by decide) h
  | .f32, _, _, h => putU_pos (by decide) h
  | .f64, _, _, h => putU_pos (by decide) h
  | .ref, .null, _, h => putU_pos (n := 4) (x := 0) (by decide) h
  | .ref, .func _, _, h => by cases h
  | .ref, .extern _, _, h => by cases h
  | .v128, _, _, h => putU_pos (by decide) h

theorem cat_pos {x : Option (List Byte)} {xs : List (Option (List Byte))} {b : List Byte} (h : cat (x :: xs) = some b)
    (hx : ∀ a, x = some a → 1 ≤ a.length) : 1 ≤ b.length := by
  obtain ⟨a, h1, h2⟩ := cat_le h x List.mem_cons_self
  have := hx a h1
  omega

theorem putVal_pos (v : Val) (b : List Byte) (h : putVal v = some b) : 1 ≤ b.length := by
  unfold putVal at h
  split at h <;> exact cat_pos h fun a ha => putU_pos (by decide) ha

theorem putLabel_pos (l : Label) (b : List Byte) (h : putLabel l = some b) : 1 ≤ b.length :=
  cat_pos h fun a ha => putU_pos (by decide) ha

theorem putVec_pos {α : Type} {e : α → Option (List Byte)} {xs : List α} {b : List Byte} (h : putVec e xs = some b) : 1 ≤ b.length :=
  cat_pos h fun a ha => putU_pos (by decide) ha

theorem putFrame_pos (f : FrameData) (b : List Byte) (h : putFrame f = some b) : 1 ≤ b.length :=
  cat_pos h fun a ha => putVec_pos ha

theorem putOffsets_pos (o : Offsets) (b : List Byte) (h : putOffsets o = some b) : 1 ≤ b.length :=
  cat_pos h fun a ha => putU_pos (by decide) ha

theorem indices_lt {P : Prog} : ∀ {fs : List Frame} {is : List Nat}, indices P fs = .ok is → ∀ i ∈ is, i < P.funcs.length
  | [], is, h => by cases h; nofun
  | f :: fs, is, h => by
    simp only [indices, Res.bind_eq_ok, Res.pure_eq, Res.ok_inj] at h
    obtain ⟨i, hi, js, hj, rfl⟩ := h
    intro k hk
    rcases List.mem_cons.mp hk with rfl | hk
    · unfold Frame.index at hi
      split at hi
      · rename_i hf
        cases hi
        exact (List.getElem?_eq_some_iff.mp hf).1
      · cases hi
    · exact indices_lt hj k hk

/-- **every state of a preprocessed program that was written to a file below 4 GiB fits** -/
theorem snapshot_fits {S : Wasi} {lz : Lz} {P : Prog} {L : Nat → Nat → Nat} {m : Machine S} (hm : SizedM P L m)
    (hB : ∀ f, (P.body f).length < 2 ^ 32) (hF : P.funcs.length ≤ 2 ^ 32) {s : Snapshot} (hs : m.snapshot lz P = .ok s)
    {b : List Byte} (hb : encode s = some b) (hlt : b.length < 2 ^ 32) : s.Fits := by
  unfold encode at hb
  have hc := cat_le hb
  simp only [Machine.snapshot, Res.bind_eq_ok, Res.pure_eq, Res.ok_inj] at hs
  obtain ⟨is, his, hs⟩ := hs
  have hregs : ∀ c, (s.regs c).length < 2 ^ 32 := by
    intro c
    obtain ⟨a, ha, hl⟩ := hc (putVec (putCarrier c) (s.regs c)) (by cases c <;> simp)
    have := (putVec_le (putCarrier_pos c) ha).1
    omega
  have eregs : s.regs = m.rf.regs := by rw [← hs]
  have hoff : ∀ o ∈ m.rf.frames, offsetsFit o := by
    intro o ho c
    have h1 := hm.rf.inside o ho c
    have h2 := hregs c
    rw [eregs] at h2
    omega
  obtain ⟨a7, h7, l7⟩ := hc (putVec putOffsets s.offsets) (by simp)
  obtain ⟨a9, h9, l9⟩ := hc (putVec putFrame s.frames) (by simp)
  obtain ⟨a10, h10, l10⟩ := hc (putVec putByte s.memory) (by simp)
  obtain ⟨a11, h11, l11⟩ := hc (putVec putVal s.globals) (by simp)
  obtain ⟨a12, h12, l12⟩ := hc (putVec (putU 4) s.funcs) (by simp)
  have k7 := putVec_le putOffsets_pos h7
  have k9 := putVec_le putFrame_pos h9
  have k10 := putVec_le (fun x b (h : putByte x = some b) => putU_pos (by decide) h) h10
  have k11 := putVec_le putVal_pos h11
  have k12 := putVec_le (fun x b (h : putU 4 x = some b) => putU_pos (by decide) h) h12
  refine ⟨hregs, by omega, ?_, ?_, by omega, ?_, by omega, by omega, by omega, ?_⟩
  · rw [← hs]
    intro o ho
    exact hoff o (List.mem_reverse.mp ho)
  · rw [← hs]
    intro c
    have h1 := hm.rf.cached c
    have h2 := hregs c
    rw [eregs] at h2
    show m.rf.cached c < 2 ^ 32
    omega
  · intro fd hfd
    obtain ⟨af, hf, lf⟩ := k9.2 fd hfd
    have hcf := cat_le hf
    obtain ⟨b1, hb1, lb1⟩ := hcf (putVec putVal fd.locals) (by simp)
    obtain ⟨b3, hb3, lb3⟩ := hcf (putVec putLabel fd.labels) (by simp)
    have j1 := putVec_le putVal_pos hb1
    have j3 := putVec_le putLabel_pos hb3
    have : ∃ f ∈ m.frames, f.data = fd := by
      rw [← hs] at hfd
      simp only [List.mem_map, List.mem_reverse] at hfd
      exact hfd
    obtain ⟨f, hfm, rfl⟩ := this
    have ok := hm.frames f hfm
    have hBf := hB f.func
    refine ⟨by omega, ok.n, by omega, ?_, ok.res.len, ok.res.fits, ok.ret.len, ok.ret.fits⟩
    intro l hl
    have := ok.labels l (List.mem_reverse.mp hl)
    exact ⟨Nat.lt_of_le_of_lt this.returnIp hBf, Nat.lt_of_le_of_lt this.ip hBf⟩
  · rw [← hs]
    intro i hi
    have := indices_lt his i hi
    omega

theorem indices_ok {P : Prog} {L : Nat → Nat → Nat} (hL : ShapedP P L) : ∀ {fs : List Frame}, (∀ f ∈ fs, FOk P L f) →
    ∃ is, indices P fs = .ok is
  | [], _ => ⟨[], rfl⟩
  | f :: fs, h => by
    obtain ⟨is, hi⟩ := indices_ok hL (fs := fs) fun g hg => h g (List.mem_cons_of_mem _ hg)
    have hf := h f List.mem_cons_self
    obtain ⟨t, code, hk⟩ := hf.known
    have hne : ∃ a l, f.labels = a :: l := by
      cases hl : f.labels with
      | nil =>
        have := hf.count
        rw [hl] at this
        have h2 := (hL f.func).pos f.at
        simp at this; omega
      | cons a l => exact ⟨a, l, rfl⟩
    obtain ⟨a, l, hl⟩ := hne
    refine ⟨f.func :: is, ?_⟩
    simp only [indices, Frame.index, hl, hk, Res.bind_ok, hi]
    rfl

/-- collecting the state of a preprocessed program never aborts -/
theorem snapshot_total {S : Wasi} {lz : Lz} {P : Prog} {L : Nat → Nat → Nat} (hL : ShapedP P L) {m : Machine S} (hm : SizedM P L m) :
    ∃ s, m.snapshot lz P = .ok s := by
  obtain ⟨is, hi⟩ := indices_ok hL (fs := m.frames.reverse) fun f hf => hm.frames f (List.mem_reverse.mp hf)
  exact ⟨_, by simp only [Machine.snapshot, hi, Res.bind_ok]; rfl⟩

/-- the state after a restore is as good as the one that was saved -/
theorem SizedM.resumed {S : Wasi} {P : Prog} {L : Nat → Nat → Nat} {m : Machine S} (h : SizedM P L m) {st : Stacks} {i : Inst}
    (w : S.W) (h1 : st.rf = m.rf) (h2 : st.frames = m.frames.map (fun f => { f with enable := false, memPtr := i.ptr })) :
    SizedM P L (st.resume (S := S) i w) := by
  refine ⟨?_, by show RfOk st.rf; rw [h1]; exact h.rf⟩
  intro f hf
  simp only [Stacks.resume, h2, List.mem_map] at hf
  obtain ⟨g, hg, rfl⟩ := hf
  have h := h.frames g hg
  exact ⟨h.pc, h.count, h.labels, h.ret, h.res, h.n, h.known⟩

end Verif.Lemmas
