import Verif.Lemmas.CompWinSeq
import Verif.Lemmas.DeadSim
/-
Compiled code names only registers of the function's window: whole bodies, and where control never goes.
-/
namespace Verif.Lemmas
open Verif.Model Verif.Spec Verif.Props

/-! ## The last instruction before the `end` of a body -/

theorem NF.wake {st : CS} (h : NF st) : NF { st with dead := 0 } := ⟨h.fall, by simp⟩

theorem NF.compOp {K : FnCtx} {st st' : CS} {o : WOp} {r r' : List WOp} (h : NF st) (hd : st.dead = 0)
    (hs : Model.compOp K st o r = some (st', r')) : NF st' := by
  refine NF.compStep (K := K) (o := o) (r := r) (r' := r') h ?_
  rw [Model.compStep, if_pos hd]; exact hs

theorem NF.skip {st : CS} (h : NF st) (hd : st.dead = 1) : ∀ n, NF (Lemmas.skip st n)
  | 0 => by simpa [Lemmas.skip] using h
  | n + 1 => by
    have ih := NF.skip h hd n
    have e : (Lemmas.skip st (n + 1)).code = (Lemmas.skip st n).code ++ [.nop] := by
      simp [Lemmas.skip, List.replicate_succ', List.append_assoc]
    refine ⟨?_, fun _ => ⟨_, _, e, Or.inr rfl⟩⟩
    rw [e]
    exact ih.fall.snoc fun _ => ih.last (by show 0 < st.dead; omega)

theorem NF.seq {K : FnCtx} {w : WSeq} {tail : List WOp} {st st' : CS} (h : CompSeq K w tail st st') : NF st → NF st' := by
  induction h with
  | done => exact id
  | dead hd => exact fun hn => hn.skip hd _
  | op hd _ hc _ ih => exact fun hn => ih (hn.compOp hd hc)
  | fused hd _ hc _ ih => exact fun hn => ih (hn.compOp hd hc)
  | block hd hc1 _ hc3 _ ihb ihk => exact fun hn => ihk ((ihb (hn.compOp hd hc1)).wake.compOp rfl hc3)
  | loop hd hc1 _ hc3 _ ihb ihk => exact fun hn => ihk ((ihb (hn.compOp hd hc1)).wake.compOp rfl hc3)
  | ite hd hc1 _ hc3 _ ihb ihk => exact fun hn => ihk ((ihb (hn.compOp hd hc1)).wake.compOp rfl hc3)
  | itee hd hc1 _ hc3 _ hc5 _ ihb ihe ihk =>
    exact fun hn => ihk ((ihe ((ihb (hn.compOp hd hc1)).wake.compOp rfl hc3)).wake.compOp rfl hc5)

/-! ## Phases 2 and 3 -/

theorem patch_win {E L : List (Nat × Nat)} {len : Nat} {stk : List (Nat × Bool)} {i j : Instr} (h : patch E L len stk i = some j) :
    j.regs = i.regs ∧ j.locs = i.locs ∧ (∀ M, Args M i → Args M j) ∧ ((∃ a b, i = .fin a b) → j = i) := by
  cases i <;> simp only [patch, Option.some.injEq, Option.map_eq_some_iff] at h
  case ite =>
    split at h
    · cases h; exact ⟨rfl, rfl, fun _ h => h, fun _ => rfl⟩
    · simp only [Option.map_eq_some_iff] at h
      obtain ⟨_, _, rfl⟩ := h; exact ⟨rfl, rfl, fun _ h => h, by rintro ⟨_, _, h⟩; cases h⟩
  case jump =>
    split at h
    · cases h; exact ⟨rfl, rfl, fun _ h => h, fun _ => rfl⟩
    · simp only [Option.map_eq_some_iff] at h
      obtain ⟨_, _, rfl⟩ := h; exact ⟨rfl, rfl, fun _ h => h, by rintro ⟨_, _, h⟩; cases h⟩
  case br => obtain ⟨_, _, rfl⟩ := h; exact ⟨rfl, rfl, fun _ h => h, by rintro ⟨_, _, h⟩; cases h⟩
  case brIf => obtain ⟨_, _, rfl⟩ := h; exact ⟨rfl, rfl, fun _ h => h, by rintro ⟨_, _, h⟩; cases h⟩
  case brTable =>
    subst h
    exact ⟨by simp [Instr.regs, List.flatMap_map], rfl, fun _ h => h, by rintro ⟨_, _, h⟩; cases h⟩
  all_goals subst h; exact ⟨rfl, rfl, fun _ h => h, fun _ => rfl⟩

theorem patchFrom_win {E L : List (Nat × Nat)} {len : Nat} : ∀ (a : List Instr) (pc : Nat) (stk : List (Nat × Bool)) (b : List Instr),
    patchFrom E L len pc stk a = some b → ∀ (k : Nat) (j : Instr), b[k]? = some j → ∃ i, a[k]? = some i ∧
      j.regs = i.regs ∧ j.locs = i.locs ∧ (∀ M, Args M i → Args M j) ∧ ((∃ a b, i = .fin a b) → j = i)
  | [], _, _, b, h, k, j, hj => by simp only [patchFrom, Option.some.injEq] at h; subst h; simp at hj
  | i :: a, pc, stk, b, h, k, j, hj => by
    simp only [patchFrom] at h
    split at h
    · rename_i j' js h1 h2
      simp only [Option.some.injEq] at h
      subst h
      cases k with
      | zero =>
        simp only [List.getElem?_cons_zero, Option.some.injEq] at hj
        subst hj
        exact ⟨i, rfl, patch_win h1⟩
      | succ k => exact patchFrom_win a _ _ js h2 k j (by simpa using hj)
    · cases h

/-- the `end` of a body whose last instruction never falls through -/
structure Gap (code : List Instr) (pc : Nat) : Prop where
  fin : ∃ a b, code[pc]? = some (.fin a b)
  behind : ∃ x i, pc = x + 1 ∧ code[x]? = some i ∧ (stops i = true ∨ i = .nop)

/-- **every instruction of the compiled body, except an `end` that control cannot reach, names registers of the window and
locals of the function, and calls pass as many arguments as the callee has parameters** -/
theorem compile_win {K : FnCtx} {w : WSeq} {code : Code} {W : Cls → Nat} (hh : Hosts K.M) (hv : ValidFn K w) (hn : NoRefSelect w)
    (hc : compileFn K w.body = some code) (hW : code.alloc = some W) (n : Nat) (i : Instr) (hi : code.body[n]? = some i) :
    (InWindow W K.nloc i ∨ Gap code.body n) ∧ Args K.M i := by
  unfold compileFn at hc
  split at hc
  · cases hc
  · rename_i fin hrun
    split at hc
    · cases hc
    · rename_i body hpat
      cases hc
      simp only [Alloc.finalize, Option.some.injEq] at hW
      subst hW
      obtain ⟨st', n', hseq, hd', hrun'⟩ := comp_seq K fin w [.fin] (CS.init K) _ hv.proper ⟨[], Or.inl rfl⟩ (by simp [CS.init]) hrun
      obtain ⟨n3, st3, r3, hc3, hrun3⟩ := compRun_close hd' (Or.inl rfl) hrun'
      obtain ⟨rfl, hd3⟩ := compOp_fin hc3
      have hfin : st3 = fin := by
        cases n3 <;> simp only [compRun] at hrun3 <;> split at hrun3 <;> cases hrun3 <;> rfl
      subst hfin
      have ext := hseq.ext
      have hm : st'.mapCtl = [] := ext.mapCtl
      have hct : st'.ctrl = [] := ext.ctrl
      have hsv : st'.saved = [] := ext.saved
      have e3 : st3 = compEnd K { st' with dead := 0 } := by
        simp only [compOp, Option.map_eq_some_iff] at hc3
        obtain ⟨x, hx, he⟩ := hc3
        cases he
        have : (compEnd K { st' with dead := 0 }).mapCtl = [] := hm
        simp only [closeMaps, this, List.isEmpty_nil, if_true, Option.some.injEq] at hx
        exact hx.symm
      have c3 : st3.code = st'.code ++ [.fin (st'.alloc.peekRegs K.results) []] := by
        rw [e3]; simp only [compEnd, CS.emit, endTypes, hct]
      have a3 : st3.alloc = st'.alloc := by rw [e3]; simp only [compEnd, CS.emit, endAlloc, hsv]
      obtain ⟨τ, hck, hfit⟩ := hv.typed
      have ha : AOk (CS.init K).alloc.depth [] (CS.init K).alloc [] := ⟨rfl, by rw [dep_nil], fun c => Nat.le_refl _⟩
      have hW0 : CWin K st3.alloc.maxDepth (CS.init K) := ⟨by simp [CS.init], by simp [PendIn, CS.init]⟩
      have hx0 : CtxIn [K.results] (CS.init K).ctrl st3.alloc.maxDepth := by simp [CtxIn, CS.init]
      obtain ⟨g1, ts', g2, g3, g4⟩ := win_seq hh hseq hn hck ha rfl hW0 hx0 (fun c => by rw [a3]; exact Nat.le_refl _)
      have hnf : NF st' := NF.seq hseq (NF.init K)
      obtain ⟨j, hj, p1, p2, p3, p4⟩ := patchFrom_win _ _ _ _ hpat n i hi
      have hkind := patchFrom_kind _ _ _ _ hpat
      have key : (InWindow st3.alloc.maxDepth K.nloc j ∨ Gap body n) ∧ Args K.M j := by
        rw [c3] at hj
        by_cases hlt : n < st'.code.length
        · rw [List.getElem?_append_left hlt] at hj
          have := g1.code j (List.mem_of_getElem? hj)
          exact ⟨.inl this.1, this.2⟩
        · rw [List.getElem?_append_right (by omega)] at hj
          have hn0 : n - st'.code.length = 0 := by
            have := (List.getElem?_eq_some_iff.1 hj).1
            simp at this; omega
          rw [hn0] at hj
          simp only [List.getElem?_cons_zero, Option.some.injEq] at hj
          subst hj
          refine ⟨?_, trivial⟩
          cases τ with
          | some t =>
            obtain ⟨rfl, _⟩ := g3 t rfl
            simp only [fits, decide_eq_true_eq] at hfit
            subst hfit
            obtain ⟨r1, r2⟩ := AOk.room (x := K.results) (ts := []) (by rw [List.append_nil]; exact g2) (W := st3.alloc.maxDepth) (fun c => by rw [a3]; exact Nat.le_refl _)
            exact .inl ⟨by simpa [Instr.regs] using peekRegs_lt r1 r2, by simp [Instr.locs]⟩
          | none =>
            right
            obtain ⟨c, x, q1, q2⟩ := hnf.last (by rw [g4 rfl]; omega)
            refine ⟨⟨_, _, (p4 ⟨_, _, rfl⟩) ▸ hi⟩, c.length, ?_⟩
            have hq : st3.code[c.length]? = some x := by rw [c3, q1]; simp
            rcases hkind c.length with ⟨h1, _⟩ | ⟨i', j', h1, h2, h3, h4⟩
            · rw [hq] at h1; cases h1
            · rw [hq] at h1; cases h1
              refine ⟨j', ?_, h2, ?_⟩
              · have : st'.code.length = c.length + 1 := by rw [q1]; simp
                omega
              · rcases q2 with q2 | q2
                · exact .inl (by rw [h4]; exact q2)
                · exact .inr (h3.2 q2)
      refine ⟨?_, p3 _ key.2⟩
      rcases key.1 with h | h
      · exact .inl ⟨by rw [p1]; exact h.regs, by rw [p2]; exact h.locs⟩
      · exact .inr h

/-- control never reaches a gap -/
theorem gap_flow {code : List Instr} (hr : Routed code) {p : Nat} {i : Instr} (hi : code[p]? = some i)
    (h0 : i ≠ .nop) {ls : List Label} : ∀ q ∈ flow code.length p ls i, ¬ Gap code q.1 := by
  have behind : ∀ (x : Nat) (j : Instr), code[x]? = some j → stops j = false → j ≠ .nop → ¬ Gap code (x + 1) := by
    rintro x j h1 h2 h3 ⟨_, y, k, h4, h5, h6⟩
    have : y = x := by omega
    subst this
    rw [h1] at h5; cases h5
    rcases h6 with h6 | h6
    · rw [h2] at h6; cases h6
    · exact h3 h6
  have next : stops i = false → ¬ Gap code (p + 1) := fun h => behind p i hi h h0
  have after : ∀ s e, Closes code s e → ¬ Gap code (e + 1) := by
    rintro s e ⟨⟨a, b, h1⟩, _⟩
    exact behind e _ h1 rfl nofun
  have zero : ¬ Gap code 0 := by rintro ⟨_, x, _, h, _⟩; omega
  have hlen : ¬ Gap code code.length := by rintro ⟨⟨a, b, h⟩, _⟩; simp at h
  have leads : ∀ d t, Leads code p d t → ¬ Gap code t := by
    intro d t h
    unfold Leads at h
    split at h
    · rcases h with ⟨h1, rfl⟩ | ⟨_, e, h1, rfl⟩
      · rintro ⟨⟨a, b, h2⟩, _⟩; rw [h1] at h2; cases h2
      · exact after _ e h1
    · subst h; exact hlen
  intro q hq
  cases hci : i with
  | jump t =>
    subst hci
    simp only [flow, List.mem_singleton] at hq
    subst hq
    obtain ⟨s, e, _, h1, rfl⟩ := hr.jump p t hi
    exact after s e h1
  | ite c t h =>
    subst hci
    simp only [flow, List.mem_cons, List.not_mem_nil, or_false] at hq
    obtain ⟨e, h1, h2⟩ := hr.ite p c t h hi
    have ht : ¬ Gap code t := by
      rcases h2 with ⟨q, ⟨⟨t', h3⟩, _⟩, rfl, rfl⟩ | ⟨_, rfl, rfl⟩
      · exact behind q _ h3 rfl nofun
      · exact after _ e h1
    rcases hq with rfl | rfl
    · exact next rfl
    · split <;> exact ht
  | fin a b =>
    subst hci
    simp only [flow] at hq
    split at hq
    · simp only [List.mem_singleton] at hq; subst hq; exact hlen
    · split at hq
      · simp only [List.mem_singleton] at hq; subst hq; exact hlen
      · simp only [List.mem_singleton] at hq; subst hq; exact next rfl
  | br d t s r =>
    subst hci
    simp only [flow, List.mem_singleton] at hq
    subst hq
    exact leads _ _ (hr.br p d t s r hi)
  | brIf d t c s r =>
    subst hci
    simp only [flow, List.mem_cons, List.not_mem_nil, or_false] at hq
    rcases hq with rfl | rfl
    · exact next rfl
    · exact leads _ _ (hr.brIf p d t c s r hi)
  | brTable ts df i0 s =>
    subst hci
    have key : ∀ x ∈ df :: ts, ¬ Gap code x.2.1 := by
      intro x hx
      have := hr.table p ts df i0 s hi x hx
      split at this
      · exact leads _ _ this
      · rw [this]; exact zero
    simp only [flow, List.mem_cons, List.mem_map] at hq
    rcases hq with rfl | ⟨x, hx, rfl⟩
    · exact key _ List.mem_cons_self
    · exact key _ (List.mem_cons_of_mem _ hx)
  | _ =>
    subst hci
    first
    | (simp only [flow, List.not_mem_nil] at hq; done)
    | (simp only [flow, List.mem_singleton] at hq
       subst hq
       exact next rfl)

end Verif.Lemmas
