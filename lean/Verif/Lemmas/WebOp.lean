import Verif.Lemmas.WebNum
import Verif.Props.Mem
import Verif.Props.State
/-
Single operators: whatever the interpreter's source-level semantics does is what the rules of `Spec.WebAssembly` say, or the
use is `Odd`.
-/
namespace Verif.Lemmas
open Verif.Model Verif.Spec Verif.Props

variable {W : Type}

theorem popV_inv {c : Cls} {stk r : List Val} {a : c.Carrier} (h : popV c stk = some (a, r)) : stk = ⟨c, a⟩ :: r := by
  cases stk with
  | nil => simp [popV] at h
  | cons v vs =>
    obtain ⟨c', x⟩ := v
    simp only [popV] at h
    split at h
    · rename_i hc
      subst hc
      simp only [Option.some.injEq, Prod.mk.injEq] at h
      rw [← h.1, ← h.2]
    · cases h

theorem pop3_inv {stk r : List Val} {x : BitVec 32 × BitVec 32 × BitVec 32} (h : pop3 stk = some (x, r)) :
    stk = i32 x.2.2 :: i32 x.2.1 :: i32 x.1 :: r := by
  unfold pop3 at h
  split at h
  · cases h
  · rename_i n r1 h1
    split at h
    · cases h
    · rename_i b r2 h2
      split at h
      · cases h
      · rename_i a r3 h3
        simp only [Option.some.injEq, Prod.mk.injEq] at h
        obtain ⟨rfl, rfl⟩ := h
        rw [popV_inv h1, popV_inv h2, popV_inv h3]

/-- an operator's outcome agrees with the rules and keeps the store good -/
def OpAgrees (H : FloatHost) (o : WOp) (stk : List Val) (s : SSt W) (x : Res (List Val × SSt W)) : Prop :=
  (∃ y, Odd y o stk s) ∨
    match x with
    | .ok (stk', s') => Op H o stk s (.next stk' s') ∧ s'.st.Good
    | .trap _ | .panic => Op H o stk s .trap
    | .ub => False

theorem same_size {st : Store} {m m' : Mem} (g : st.Good) (hm : st.mem = some m) (hl : m'.data.length = m.data.length)
    (hx : m'.max = m.max) : ({ st with mem := some m' } : Store).Good := by
  refine ⟨fun x h => ?_, g.datas, g.tables⟩
  cases h
  rw [hl, hx]
  exact g.mem m hm

theorem sound_mem {H : FloatHost} {o : WOp} {stk : List Val} {s : SSt W} {e : Res (List Val × SSt W)}
    {f : Mem → Res (List Val × SSt W)}
    (ho : match o with
      | .load _ _ | .store _ _ | .memSize | .memGrow | .memCopy | .memFill | .memInit _ => True | _ => False)
    (h : ∀ m, s.st.mem = some m → OpAgrees H o stk s (f m)) : OpAgrees H o stk s (onMem s e f) := by
  unfold onMem
  cases hm : s.st.mem with
  | some m => exact h m hm
  | none => exact .inl ⟨_, .noMem hm ho⟩

theorem range_updates {m m' : Mem} {a n : Nat} {f : Nat → Option Byte} (hl : m'.data.length = m.data.length) (hx : m'.max = m.max)
    (h : ∀ i, m'.data[i]? = if a ≤ i ∧ i < a + n then f (i - a) else m.data[i]?) : m.Updates a n f m' := by
  refine ⟨hl, hx, fun i hi => ?_, fun i hi => ?_⟩
  · rw [h, if_pos (by omega), Nat.add_sub_cancel_left]
  · rw [h, if_neg (by omega)]

theorem sound_load {H : FloatHost} {op : LoadOp} {off : BitVec 64} {p : BitVec 32} {stk : List Val} {s : SSt W} {m : Mem}
    (g : s.st.Good) (hm : s.st.mem = some m) : OpAgrees H (.load op off) (i32 p :: stk) s (push op.cls (m.load op p off) stk s) := by
  by_cases hb : InBounds m.data.length (p.toNat + off.toNat) op.bytes
  · obtain ⟨v, h1, h2⟩ := load_correct m op p off (g.mem m hm).2.1 hb
    rw [h1]
    exact .inr ⟨.load hm hb h2, g⟩
  · exact .inl ⟨_, .load hm hb⟩

theorem sound_store {H : FloatHost} {op : StoreOp} {off : BitVec 64} {p : BitVec 32} {v : op.cls.Carrier} {stk : List Val}
    {s : SSt W} {m : Mem} (g : s.st.Good) (hm : s.st.mem = some m) :
    OpAgrees H (.store op off) (⟨op.cls, v⟩ :: i32 p :: stk) s ((m.store op p off v).bind fun m => .ok (stk, s.setMem m)) := by
  by_cases hb : InBounds m.data.length (p.toNat + off.toNat) op.bytes
  · obtain ⟨m', h1, h2, h3, h4, h5⟩ := store_correct m op p off v (g.mem m hm).2.1 hb
    rw [h1]
    exact .inr ⟨.store hm hb ⟨h2, h3, h4, h5⟩, same_size g hm h2 h3⟩
  · exact .inl ⟨_, .store hm hb⟩

theorem sound_grow {H : FloatHost} {d : BitVec 32} {stk : List Val} {s : SSt W} {m : Mem} (g : s.st.Good) (hm : s.st.mem = some m) :
    OpAgrees H .memGrow (i32 d :: stk) s ((m.growInstr d).bind fun x => push .i32 (.ok x.1) stk (s.setMem x.2)) := by
  obtain ⟨g1, g2, g3⟩ := g.mem m hm
  by_cases ho : 2 ^ 31 - 65536 ≤ d.toNat ∨ m.pages + d.toNat = 65536
  · exact .inl ⟨_, .memGrow hm ho⟩
  · obtain ⟨v, m', h1, h2⟩ := grow_spec_partial m d g2 g1 g3 (by omega) (fun h => ho (.inr h))
    rw [h1]
    refine .inr ?_
    rcases h2 with ⟨rfl, rfl, h⟩ | ⟨ha, hv, hx, hd⟩
    · have e : s.setMem m' = s := by
        unfold SSt.setMem
        rw [← hm]
      show Op H _ _ _ (.next (_ :: stk) (s.setMem m')) ∧ (s.setMem m').st.Good
      rw [e]
      exact ⟨.memGrowFail hm h rfl, g⟩
    · refine ⟨.memGrow hm ha hv hx hd, fun x h => ?_, g.datas, g.tables⟩
      cases h
      rw [hx, hd]
      have hp : m.pages + d.toNat < 65536 := by
        have := ha.1
        unfold Mem.pages at *
        omega
      simp only [List.length_append, List.length_replicate]
      unfold Mem.pages pageSize at *
      refine ⟨by omega, by omega, g3⟩

theorem sound_copy {H : FloatHost} {a b n : BitVec 32} {stk : List Val} {s : SSt W} {m : Mem} (g : s.st.Good)
    (hm : s.st.mem = some m) :
    OpAgrees H .memCopy (i32 n :: i32 b :: i32 a :: stk) s ((m.copy a b n).bind fun m => .ok (stk, s.setMem m)) := by
  by_cases ha : InBounds m.data.length a.toNat n.toNat
  · by_cases hb : InBounds m.data.length b.toNat n.toNat
    · obtain ⟨m', h1, h2, h3, h4⟩ := copy_correct m a b n ha hb
      rw [h1]
      exact .inr ⟨.memCopy hm ha hb (range_updates (f := fun i => m.data[b.toNat + i]?) h3 h2 h4), same_size g hm h3 h2⟩
    · exact .inl ⟨_, .memCopy hm (.inr hb)⟩
  · exact .inl ⟨_, .memCopy hm (.inl ha)⟩

theorem sound_fill {H : FloatHost} {a v n : BitVec 32} {stk : List Val} {s : SSt W} {m : Mem} (g : s.st.Good)
    (hm : s.st.mem = some m) :
    OpAgrees H .memFill (i32 n :: i32 v :: i32 a :: stk) s ((m.fill a v n).bind fun m => .ok (stk, s.setMem m)) := by
  by_cases ha : InBounds m.data.length a.toNat n.toNat
  · obtain ⟨m', h1, h2, h3, h4⟩ := fill_correct m a v n ha
    rw [h1]
    exact .inr ⟨.memFill hm ha (range_updates (f := fun _ => some (BitVec.ofNat 8 (v.toNat % 256))) h3 h2 h4), same_size g hm h3 h2⟩
  · exact .inl ⟨_, .memFill hm ha⟩

theorem sound_init {H : FloatHost} {k : Nat} {seg : List Byte} {a b n : BitVec 32} {stk : List Val} {s : SSt W} {m : Mem}
    (g : s.st.Good) (hm : s.st.mem = some m) (hk : s.st.datas[k]? = some seg) :
    OpAgrees H (.memInit k) (i32 n :: i32 b :: i32 a :: stk) s ((m.initInstr seg a b n).bind fun m => .ok (stk, s.setMem m)) := by
  have g2 := (g.mem m hm).2.1
  have g3 := g.datas k seg hk
  by_cases ha : InBounds m.data.length a.toNat n.toNat
  · by_cases hb : InBounds seg.length b.toNat n.toNat
    · obtain ⟨m', h1, h2, h3, h4⟩ := init_correct m seg a b n g2 g3 ha hb
      rw [h1]
      exact .inr ⟨.memInit hm hk ha hb (range_updates (f := fun i => seg[b.toNat + i]?) h3 h2 h4), same_size g hm h3 h2⟩
    · by_cases h0 : n = 0
      · subst h0
        exact .inl ⟨_, .memInit hm hk (.inr (by unfold InBounds at hb; simp at hb; omega))⟩
      · rw [(oob_traps_partial m g2).1 seg a b n g3 h0 (.inl (by unfold InBounds at hb; omega))]
        exact .inr (.memInitTrap hm hk (.inr hb))
  · by_cases h0 : n = 0
    · subst h0
      exact .inl ⟨_, .memInit hm hk (.inl (by unfold InBounds at ha; simp at ha; omega))⟩
    · rw [(oob_traps_partial m g2).1 seg a b n g3 h0 (.inr (by unfold InBounds at ha; omega))]
      exact .inr (.memInitTrap hm hk (.inl ha))

theorem set_tables_good {st : Store} {t : Nat} {tb tb' : List Ref} (g : st.Good) (ht : st.tables[t]? = some tb)
    (hl : tb'.length = tb.length) : ({ st with tables := st.tables.set t tb' } : Store).Good := by
  refine ⟨g.mem, g.datas, fun t' x hx => ?_⟩
  rw [List.getElem?_set] at hx
  split at hx
  · split at hx
    · cases hx; rw [hl]; exact g.tables t tb ht
    · cases hx
  · exact g.tables t' x hx

theorem sound_tfill {H : FloatHost} {t : Nat} {tb : List Ref} {i n : BitVec 32} {r : Ref} {stk : List Val} {s : SSt W}
    (g : s.st.Good) (ht : s.st.tables[t]? = some tb) :
    OpAgrees H (.tableFill t) (i32 n :: rf r :: i32 i :: stk) s ((fillTable tb i r n).bind fun tb =>
      .ok (stk, { s with st := { s.st with tables := s.st.tables.set t tb } })) := by
  have key := table_fill_partial tb i n r
  by_cases hin : i.toNat + n.toNat ≤ tb.length
  · by_cases hw : i.toNat + n.toNat < 2 ^ 32
    · obtain ⟨tb', h1, h2, h3⟩ := (key hw).1 (.inl hin)
      rw [h1]
      exact .inr ⟨.tableFill ht hin h2 h3, set_tables_good g ht h2⟩
    · exact absurd (g.tables t tb ht) (by omega)
  · by_cases h0 : n.toNat = 0 ∨ 2 ^ 32 ≤ i.toNat + n.toNat
    · exact .inl ⟨_, .tableFill ht (by omega) h0⟩
    · rw [(key (by omega)).2 (by omega) (by rintro rfl; exact h0 (.inl rfl))]
      exact .inr (.tableFillTrap ht (by omega))

theorem agrees_ok {H : FloatHost} {o : WOp} {stk stk' : List Val} {s s' : SSt W} (h : Op H o stk s (.next stk' s'))
    (g : s'.st.Good) : OpAgrees H o stk s (.ok (stk', s')) := .inr ⟨h, g⟩

theorem set_datas_good {st : Store} {k : Nat} (g : st.Good) : ({ st with datas := st.datas.set k [] } : Store).Good := by
  refine ⟨g.mem, fun k' x hx => ?_, g.tables⟩
  rw [List.getElem?_set] at hx
  split at hx
  · split at hx
    · cases hx; decide
    · cases hx
  · exact g.datas k' x hx

theorem set_globals_good {st : Store} {gs : List Global} (g : st.Good) : ({ st with globals := gs } : Store).Good :=
  ⟨g.mem, g.datas, g.tables⟩

theorem sound_un {H : FloatHost} {op : Op1} {a : op.src.Carrier} {stk : List Val} {s : SSt W} (g : s.st.Good) :
    OpAgrees H (.un op) (⟨op.src, a⟩ :: stk) s (push op.dst (op.eval H a) stk s) := by
  rcases unary_sound H op a with h | ⟨t, rfl, b, x, hb, h1, h2, h3⟩
  · unfold Agrees at h
    split at h
    · rename_i v hv; rw [hv]; exact .inr ⟨.un h, g⟩
    · rename_i e hv; rw [hv]; exact .inr (.unTrap h)
    · rename_i hv; rw [hv]; exact .inr (.unTrap h)
    · exact h.elim
  · cases hb
    exact .inl ⟨_, .trunc h1 h2 h3⟩

theorem sound_bin {H : FloatHost} {op : Op2} {a b : op.src.Carrier} {stk : List Val} {s : SSt W} (g : s.st.Good) :
    OpAgrees H (.bin op) (⟨op.src, b⟩ :: ⟨op.src, a⟩ :: stk) s (push op.dst (op.eval H a b) stk s) := by
  have h := binary_sound H op a b
  unfold Agrees at h
  split at h
  · rename_i v hv; rw [hv]; exact .inr ⟨.bin h, g⟩
  · rename_i e hv; rw [hv]; exact .inr (.binTrap h)
  · rename_i hv; rw [hv]; exact .inr (.binTrap h)
  · exact h.elim

theorem i32_nz {c : BitVec 32} (h : c ≠ 0) : c.toNat ≠ 0 := fun h' => h (BitVec.eq_of_toNat_eq (by simpa using h'))

/-- Every operator outcome is allowed by the rules, or the use is `Odd`. -/
theorem op_sound (H : FloatHost) {o : WOp} {stk : List Val} {s : SSt W} {x : Res (List Val × SSt W)} (g : s.st.Good)
    (h : opSem H o stk s = some x) : OpAgrees H o stk s x := by
  cases o <;> simp only [opSem] at h
  case localGet i =>
    split at h <;> cases h
    rename_i v hv
    exact agrees_ok (.localGet hv) g
  case localSet i =>
    split at h <;> cases h
    by_cases hi : i < s.locals.length
    · exact agrees_ok (.localSet hi) g
    · exact .inl ⟨_, .noLocal (by omega)⟩
  case localTee i =>
    split at h <;> cases h
    by_cases hi : i < s.locals.length
    · exact agrees_ok (.localTee hi) g
    · exact .inl ⟨_, .noLocalT (by omega)⟩
  case globalGet i =>
    split at h <;> cases h
    rename_i gl hg
    exact agrees_ok (.globalGet hg) g
  case globalSet i =>
    split at h <;> cases h
    rename_i gl hg
    exact agrees_ok (.globalSet hg) (set_globals_good g)
  case const c v => cases h; exact agrees_ok .const g
  case un op =>
    split at h <;> cases h
    rename_i a r hp
    rw [popV_inv hp]
    exact sound_un g
  case bin op =>
    split at h
    · rename_i b r hp
      split at h <;> cases h
      rename_i a r' hp'
      rw [popV_inv hp, popV_inv hp']
      exact sound_bin g
    · cases h
  case load op off =>
    split at h <;> cases h
    rename_i p r hp
    rw [popV_inv hp]
    exact sound_mem trivial fun m hm => sound_load g hm
  case store op off =>
    split at h
    · rename_i v r hp
      split at h <;> cases h
      rename_i p r' hp'
      rw [popV_inv hp, popV_inv hp']
      exact sound_mem trivial fun m hm => sound_store g hm
    · cases h
  case memSize =>
    cases h
    refine sound_mem trivial fun m hm => agrees_ok (.memSize hm ?_) g
    show (BitVec.ofNat 32 _).toNat = _
    have := (g.mem m hm).2.1
    rw [BitVec.toNat_ofNat, Mem.pages, pageSize, Nat.mod_eq_of_lt (by omega)]
  case memGrow =>
    split at h <;> cases h
    rename_i p r hp
    rw [popV_inv hp]
    exact sound_mem trivial fun m hm => sound_grow g hm
  case memCopy =>
    split at h <;> cases h
    rename_i p r hp
    rw [pop3_inv hp]
    exact sound_mem trivial fun m hm => sound_copy g hm
  case memFill =>
    split at h <;> cases h
    rename_i p r hp
    rw [pop3_inv hp]
    exact sound_mem trivial fun m hm => sound_fill g hm
  case memInit k =>
    split at h <;> cases h
    rename_i p r hp
    rw [pop3_inv hp]
    refine sound_mem trivial fun m hm => ?_
    cases hk : s.st.datas[k]? with
    | none => exact .inl ⟨_, .noData (by simpa using hk) (.inl rfl)⟩
    | some seg => exact sound_init g hm hk
  case dataDrop k =>
    cases h
    by_cases hk : k < s.st.datas.length
    · exact agrees_ok (.dataDrop hk) (set_datas_good g)
    · exact .inl ⟨_, .noData (by omega) (.inr rfl)⟩
  case select =>
    split at h <;> cases h
    rename_i c v2 v1 r hp
    rw [popV_inv hp]
    by_cases hc : c = (0 : BitVec 32)
    · subst hc; exact agrees_ok .select2 g
    · rw [if_pos hc]; exact agrees_ok (.select1 (i32_nz hc)) g
  case selectT t =>
    split at h <;> cases h
    rename_i c v2 v1 r hp
    rw [popV_inv hp]
    by_cases hc : c = (0 : BitVec 32)
    · subst hc; exact agrees_ok .selectT2 g
    · rw [if_pos hc]; exact agrees_ok (.selectT1 (i32_nz hc)) g
  case refNull => cases h; exact agrees_ok .refNull g
  case refIsNull =>
    split at h <;> cases h
    rename_i x r hp
    rw [popV_inv hp]
    refine agrees_ok (.refIsNull ⟨fun h => ?_, fun h => ?_⟩) g
    · rw [if_pos h]; rfl
    · rw [if_neg h]; rfl
  case tableGet t =>
    split at h
    · rename_i i r hp
      rw [popV_inv hp]
      split at h
      · rename_i ht; cases h; exact .inl ⟨_, .noTable (by simpa using ht) (.inl rfl)⟩
      · rename_i tb ht
        split at h
        · rename_i hi; cases h; exact .inr (.tableGetTrap ht (by simpa using hi))
        · rename_i x hi; cases h; exact agrees_ok (.tableGet ht hi) g
    · cases h
  case tableSet t =>
    split at h
    · rename_i x r hp
      split at h
      · rename_i i r' hp'
        rw [popV_inv hp, popV_inv hp']
        split at h
        · rename_i ht; cases h; exact .inl ⟨_, .noTable (by simpa using ht) (.inr (.inl rfl))⟩
        · rename_i tb ht
          split at h
          · rename_i hi; cases h
            exact agrees_ok (.tableSet ht hi) (set_tables_good g ht (by simp))
          · rename_i hi; cases h; exact .inr (.tableSetTrap ht (by omega))
      · cases h
    · cases h
  case tableFill t =>
    split at h
    · rename_i n r hp
      split at h
      · rename_i x r' hp'
        split at h
        · rename_i i r'' hp''
          rw [popV_inv hp, popV_inv hp', popV_inv hp'']
          split at h
          · rename_i ht; cases h; exact .inl ⟨_, .noTable (by simpa using ht) (.inr (.inr rfl))⟩
          · rename_i tb ht
            cases h
            exact sound_tfill g ht
        · cases h
      · cases h
    · cases h
  case drop => split at h <;> cases h; exact agrees_ok .drop g
  case nop => cases h; exact agrees_ok .nop g
  case unreachable => cases h; exact .inr .unreachable
  all_goals cases h

end Verif.Lemmas
