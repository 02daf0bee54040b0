import Verif.Spec.WasiCalls
import Verif.Props.Wasi
/- Facts about the passthrough model: native pointers and places, guest requests. -/
namespace Verif.Lemmas
open Verif.Spec Verif.Model Verif.Props

theorem overwrite_nil (d : List Byte) (p : Nat) : overwrite d p [] = d := by
  simp [overwrite]

/-- native pointers `vs` point at the places `rg` of a memory of `len` bytes -/
inductive Points (len : Nat) : List IoVec → List (Nat × Nat) → Prop
  | nil : Points len [] []
  | buf {vs rg} (p l : BitVec 32) (c : Nat) (h : p.toNat + c ≤ len) (t : Points len vs rg) :
      Points len (.buf p l :: vs) ((p.toNat, c) :: rg)
  | null {vs rg} (a : Nat) (t : Points len vs rg) : Points len (.null :: vs) ((a, 0) :: rg)

theorem Points.append {len : Nat} {vs vs' : List IoVec} {rg rg' : List (Nat × Nat)} (h : Points len vs rg) (h' : Points len vs' rg') :
    Points len (vs ++ vs') (rg ++ rg') := by
  induction h with
  | nil => exact h'
  | buf p l c h _ ih => exact .buf p l c h ih
  | null a _ ih => exact .null a ih

theorem Points.length {len : Nat} {vs : List IoVec} {rg : List (Nat × Nat)} (h : Points len vs rg) : vs.length = rg.length := by
  induction h with
  | nil => rfl
  | buf p l c h _ ih => simp [ih]
  | null a _ ih => simp [ih]

theorem fillAll_put {vs : List IoVec} {rg : List (Nat × Nat)} {len : Nat} (h : Points len vs rg) : ∀ {d : List Byte} {ok : Bool}
    {pl : List (Nat × Bool)} {outs : List (List Byte)}, d.length = len → pl.map (·.1) = rg.map (·.2) → Fills ok pl outs →
    fillAll d vs outs = .ok (put d rg outs) ∧ (put d rg outs).length = len := by
  induction h with
  | nil =>
    intro d ok pl outs hd hp hf
    refine ⟨by simp [fillAll, put], by simpa [put] using hd⟩
  | @buf vs rg p l c hin _ ih =>
    intro d ok pl outs hd hp hf
    match pl, outs, hp, hf with
    | (c', r) :: pl, b :: bs, hp, hf =>
      simp only [List.map_cons, List.cons.injEq] at hp
      obtain ⟨hp1, hp2⟩ := hp
      obtain ⟨h1, _, h3⟩ := hf
      have hw : p.toNat + b.length ≤ d.length := by omega
      have hl := overwrite_length hw
      obtain ⟨e1, e2⟩ := ih (hl.trans hd) hp2 h3
      refine ⟨?_, by simpa only [put] using e2⟩
      simp only [fillAll, IoVec.fill, writeAt, if_pos hw, Res.bind_ok, put, e1]
  | @null vs rg a _ ih =>
    intro d ok pl outs hd hp hf
    match pl, outs, hp, hf with
    | (c', r) :: pl, b :: bs, hp, hf =>
      simp only [List.map_cons, List.cons.injEq] at hp
      obtain ⟨hp1, hp2⟩ := hp
      obtain ⟨h1, _, h3⟩ := hf
      have hb : b = [] := List.length_eq_zero_iff.mp (by omega)
      subst hb
      obtain ⟨e1, e2⟩ := ih hd hp2 h3
      refine ⟨?_, by simpa only [put, overwrite_nil] using e2⟩
      simp only [fillAll, IoVec.fill, Res.bind_ok, put, overwrite_nil, e1]

theorem places_append (as bs : List NArg) : places (as ++ bs) = places as ++ places bs := by
  induction as with
  | nil => rfl
  | cons a as ih => cases a <;> simp [places, ih]

theorem fills_append {ok : Bool} {pl pl' : List (Nat × Bool)} {outs : List (List Byte)} (h : Fills ok (pl ++ pl') outs) :
    ∃ o o', outs = o ++ o' ∧ Fills ok pl o ∧ Fills ok pl' o' ∧ o.length = pl.length := by
  induction pl generalizing outs with
  | nil => exact ⟨[], outs, rfl, trivial, h, rfl⟩
  | cons p pl ih =>
    match outs, h with
    | b :: bs, h =>
      obtain ⟨h1, h2, h3⟩ := h
      obtain ⟨o, o', rfl, e1, e2, e3⟩ := ih h3
      exact ⟨b :: o, o', rfl, ⟨h1, h2, e1⟩, e2, by simp [e3]⟩

theorem fillAll_append (d : List Byte) (vs : List IoVec) (o o' : List (List Byte)) (h : vs.length = o.length) :
    fillAll d vs (o ++ o') = fillAll d vs o := by
  induction vs generalizing d o with
  | nil =>
    have : o = [] := List.length_eq_zero_iff.mp (by simpa using h.symm)
    subst this
    simp [fillAll]
  | cons v vs ih =>
    match o, h with
    | b :: bs, h =>
      simp only [List.cons_append, fillAll]
      congr 1
      funext d'
      exact ih d' bs (by simpa using h)

theorem put_append (d : List Byte) (rg rg' : List (Nat × Nat)) (o o' : List (List Byte)) (h : rg.length = o.length) :
    put d (rg ++ rg') (o ++ o') = put (put d rg o) rg' o' := by
  induction rg generalizing d o with
  | nil =>
    have : o = [] := List.length_eq_zero_iff.mp (by simpa using h.symm)
    subst this
    simp [put]
  | cons r rg ih =>
    match o, h with
    | b :: bs, h => exact ih _ bs (by simpa using h)

/-- the answer of a host after a request was understood as meant -/
def answered (H : Native) (fn : WasiFn) (m : Mem) (w : H.W) (na : List NArg) (rg : List (Nat × Nat)) :
    Except WasiErr (BitVec 32) × Mem × H.W :=
  (.ok ((H.call fn na w).1.errno.setWidth 32), { m with data := put m.data rg (H.call fn na w).1.outs }, (H.call fn na w).2)

theorem nativeCall_eq {H : Native} (hH : Conforms H) {m : Mem} {w : H.W} {fn : WasiFn} {na : List NArg} {vs : List IoVec}
    {rg : List (Nat × Nat)} (hp : Points m.data.length vs rg) (hr : (places na).map (·.1) = rg.map (·.2)) :
    nativeCall H m w fn na vs = .ok (answered H fn m w na rg) := by
  simp only [nativeCall, (fillAll_put hp rfl hr (hH.fills fn na w)).1, Res.bind_ok, Res.pure_eq, answered]

theorem localVar_self {bs : List Byte} {n : Nat} (h : bs.length = n) : localVar n bs = bs := by
  simp only [localVar]
  rw [List.take_append_of_le_length (by omega), List.take_of_length_le (by omega)]

theorem nativeCallLocal_eq {H : Native} (hH : Conforms H) {m : Mem} {w : H.W} {fn : WasiFn} {na : List NArg} {vs : List IoVec}
    {rg : List (Nat × Nat)} (hp : Points m.data.length vs rg) (hr : (places na).map (·.1) = rg.map (·.2)) {k : Nat} {p : BitVec 32}
    (hk : p.toNat + k ≤ m.data.length) :
    nativeCallLocal H m w fn na vs k p = .ok (answered H fn m w (na ++ [.ret k]) (rg ++ [(p.toNat, k)])) := by
  have hf := hH.fills fn (na ++ [.ret k]) w
  rw [places_append] at hf
  obtain ⟨o, o', e, h1, h2, h3⟩ := fills_append hf
  obtain ⟨e1, e2⟩ := fillAll_put hp rfl hr h1
  have hlen : rg.length = o.length := by
    have := congrArg List.length hr
    simp only [List.length_map] at this
    omega
  match o', h2 with
  | [b], h2 =>
    obtain ⟨_, hb, _⟩ := h2
    have hb := hb rfl
    simp only [nativeCallLocal, e, fillAll_append _ _ _ _ (hp.length.trans hlen), e1, Res.bind_ok, answered]
    rw [put_append _ _ _ _ _ hlen]
    by_cases hz : (H.call fn (na ++ [.ret k]) w).1.errno = 0
    · rw [decide_eq_true hz, if_pos rfl] at hb
      have hg : (o ++ [b]).getD o.length [] = b := by simp [List.getD]
      simp only [storeResult, if_pos hz, e, hp.length, hlen, hg, localVar_self hb, Mem.storeBytes, writeAt]
      rw [if_pos (by rw [e2, hb]; exact hk)]
      rfl
    · rw [decide_eq_false hz, if_neg (by simp)] at hb
      have hb := List.length_eq_zero_iff.mp hb
      subst hb
      simp only [storeResult, if_neg hz, Res.bind_ok, Res.pure_eq, put, overwrite_nil]

/-! ### paths -/

theorem takeWhile_self (bs : List Byte) (h : 0 ∉ bs) : bs.takeWhile (· ≠ 0) = bs := by
  induction bs with
  | nil => rfl
  | cons b bs ih =>
    simp only [List.mem_cons, not_or] at h
    rw [List.takeWhile_cons, if_pos (by simpa using fun hb => h.1 hb.symm), ih h.2]

theorem pathArg_eq {d : List Byte} {p l : BitVec 32} (h : p.toNat + l.toNat ≤ d.length) (h0 : 0 ∉ bytesAt d p.toNat l.toNat) :
    pathArg d p l = .ok (.str (bytesAt d p.toNat l.toNat)) := by
  simp only [pathArg, readAt, if_pos h, Res.bind_ok, Res.pure_eq]
  rw [show (d.drop p.toNat).take l.toNat = bytesAt d p.toNat l.toNat from rfl, takeWhile_self _ h0]

/-! ### iovec arrays -/

theorem wordAt_eq (m : Mem) (p : Nat) : wordAt m.data p = u32At m p := rfl

theorem descOk_iff (m : Mem) (p i : Nat) : DescOk m.data p i ↔ IovOk m p i := Iff.rfl

theorem gatherRaw_spec (m : Mem) (iovs : BitVec 32) (hmem : m.data.length < 2 ^ 32) (is : List Nat) (acc : List IoVec)
    (h : ∀ i ∈ is, DescOk m.data iovs.toNat i) :
    gatherRaw m.data iovs is acc = .ok (acc ++ is.map (nativeIov m iovs.toNat)) := by
  induction is generalizing acc with
  | nil => simp [gatherRaw]
  | cons i is ih =>
    have hi := h i (by simp)
    have his : ∀ j ∈ is, DescOk m.data iovs.toNat j := fun j hj => h j (List.mem_cons_of_mem _ hj)
    have h8 := hi.1
    have hoff : (iovs + BitVec.ofNat 32 i * 8#32).toNat = iovs.toNat + 8 * i := by
      simp only [BitVec.toNat_add, BitVec.toNat_mul, BitVec.toNat_ofNat]
      rw [Nat.mod_eq_of_lt (a := i) (by omega)]
      omega
    simp only [gatherRaw, hoff]
    rw [if_neg (by omega)]
    have e1 : fromLE ((m.data.drop (iovs.toNat + 8 * i)).take 4) = iovPtr m iovs.toNat i := by
      rw [fromLE_read _ _ _ (by omega)]; rfl
    have e2 : fromLE ((m.data.drop (iovs.toNat + 8 * i + 4)).take 4) = iovLen m iovs.toNat i := by
      rw [fromLE_read _ _ _ (by omega)]; rfl
    have l2 : iovLen m iovs.toNat i < 2 ^ 32 := u32At_lt _ _ (by omega)
    rw [e1, e2]
    by_cases hz : iovLen m iovs.toNat i = 0
    · rw [if_pos (by rw [hz]; rfl), ih _ his]
      simp [nativeIov, hz]
    · rw [if_neg (by
        intro hh
        have := congrArg BitVec.toNat hh
        rw [BitVec.toNat_ofNat, Nat.mod_eq_of_lt l2] at this
        exact hz this), ih _ his]
      simp [nativeIov, hz]

theorem native_points (m : Mem) (p : Nat) (hmem : m.data.length < 2 ^ 32) (is : List Nat) (h : ∀ i ∈ is, DescOk m.data p i) :
    Points m.data.length (is.map (nativeIov m p)) (is.map fun i => (descPtr m.data p i, descLen m.data p i)) := by
  induction is with
  | nil => exact .nil
  | cons i is ih =>
    have his := ih (fun j hj => h j (List.mem_cons_of_mem _ hj))
    have hi := h i (by simp)
    simp only [List.map_cons]
    by_cases hz : descLen m.data p i = 0
    · have e : nativeIov m p i = .null := if_pos hz
      rw [e, hz]
      exact .null _ his
    · have e : nativeIov m p i = .buf (BitVec.ofNat 32 (descPtr m.data p i)) (BitVec.ofNat 32 (descLen m.data p i)) := if_neg hz
      have hb := hi.2.resolve_left hz
      have e1 : (BitVec.ofNat 32 (descPtr m.data p i)).toNat = descPtr m.data p i := ofNat32_toNat (by omega)
      rw [e]
      have := Points.buf (BitVec.ofNat 32 (descPtr m.data p i)) (BitVec.ofNat 32 (descLen m.data p i)) (descLen m.data p i)
        (by rw [e1]; exact hb) his
      rwa [e1] at this

theorem native_cap (m : Mem) (p i : Nat) (hmem : m.data.length < 2 ^ 32) (hd : DescOk m.data p i) :
    (nativeIov m p i).cap = descLen m.data p i := by
  by_cases hz : descLen m.data p i = 0
  · have e : nativeIov m p i = .null := if_pos hz
    rw [e, hz, IoVec.cap]
  · have e : nativeIov m p i = .buf (BitVec.ofNat 32 (descPtr m.data p i)) (BitVec.ofNat 32 (descLen m.data p i)) := if_neg hz
    have hlt := hd.2.resolve_left hz
    rw [e, IoVec.cap, ofNat32_toNat (by omega)]

theorem native_caps (m : Mem) (p : Nat) (hmem : m.data.length < 2 ^ 32) (is : List Nat) (h : ∀ i ∈ is, DescOk m.data p i) :
    (is.map (nativeIov m p)).map IoVec.cap = is.map (descLen m.data p) := by
  induction is with
  | nil => rfl
  | cons i is ih =>
    have e := native_cap m p i hmem (h i (List.mem_cons_self ..))
    have e' := ih (fun j hj => h j (List.mem_cons_of_mem _ hj))
    simp only [List.map_cons]
    rw [e, e']

theorem desc_count {d : List Byte} {p n : Nat} (h : ∀ i ∈ List.range n, DescOk d p i) : n = 0 ∨ p + 8 * n ≤ d.length := by
  rcases Nat.eq_zero_or_pos n with h0 | h0
  · exact .inl h0
  · have := (h (n - 1) (by simp; omega)).1
    omega

/-! ### requests, relationally -/

/-- `ask`, as a relation -/
inductive Asks (d : List Byte) : List Role → List Nat → List NArg → List (Nat × Nat) → Prop
  | nil : Asks d [] [] [] []
  | num {b rs n ns na rg} (h : n < 2 ^ b) (t : Asks d rs ns na rg) : Asks d (.num b :: rs) (n :: ns) (.num n :: na) rg
  | path {rs p l ns na rg} (h : p + l ≤ d.length) (h0 : 0 ∉ bytesAt d p l) (t : Asks d rs ns na rg) :
      Asks d (.path :: rs) (p :: l :: ns) (.str (bytesAt d p l) :: na) rg
  | data {rs p n ns na rg} (h : ∀ i ∈ List.range n, DescOk d p i) (t : Asks d rs ns na rg) :
      Asks d (.data :: rs) (p :: n :: ns) (.rd ((List.range n).map fun i => bytesAt d (descPtr d p i) (descLen d p i)) :: na) rg
  | bufs {rs p n ns na rg} (h : ∀ i ∈ List.range n, DescOk d p i) (t : Asks d rs ns na rg) :
      Asks d (.bufs :: rs) (p :: n :: ns) (.wr ((List.range n).map (descLen d p)) :: na)
        (((List.range n).map fun i => (descPtr d p i, descLen d p i)) ++ rg)
  | buf {rs p l ns na rg} (h : p + l ≤ d.length) (t : Asks d rs ns na rg) :
      Asks d (.buf :: rs) (p :: l :: ns) (.out l :: na) ((p, l) :: rg)
  | poll {rs i o n ns na rg} (h : i + 48 * n ≤ d.length) (h' : o + 32 * n ≤ d.length) (t : Asks d rs ns na rg) :
      Asks d (.poll :: rs) (i :: o :: n :: ns) (.inp (bytesAt d i (48 * n)) :: .out (32 * n) :: .num n :: na) ((o, 32 * n) :: rg)
  | ret {k rs p ns na rg} (h : p + k ≤ d.length) (t : Asks d rs ns na rg) : Asks d (.ret k :: rs) (p :: ns) (.ret k :: na) ((p, k) :: rg)

theorem asks_of (d : List Byte) : ∀ (rs : List Role) (ns : List Nat) (q : List NArg × List (Nat × Nat)), ask d rs ns = some q → Asks d rs ns q.1 q.2
  | [], [], q, h => by simp only [ask, Option.some.injEq] at h; subst h; exact .nil
  | .num b :: rs, n :: ns, q, h => by
    simp only [ask] at h
    split at h
    · obtain ⟨q', h1, rfl⟩ := Option.map_eq_some_iff.mp h
      exact .num ‹_› (asks_of d rs ns q' h1)
    · cases h
  | .path :: rs, p :: l :: ns, q, h => by
    simp only [ask] at h
    split at h
    · rename_i hc
      obtain ⟨q', h1, rfl⟩ := Option.map_eq_some_iff.mp h
      exact .path hc.1 hc.2 (asks_of d rs ns q' h1)
    · cases h
  | .data :: rs, p :: n :: ns, q, h => by
    simp only [ask] at h
    split at h
    · obtain ⟨q', h1, rfl⟩ := Option.map_eq_some_iff.mp h
      exact .data ‹_› (asks_of d rs ns q' h1)
    · cases h
  | .bufs :: rs, p :: n :: ns, q, h => by
    simp only [ask] at h
    split at h
    · obtain ⟨q', h1, rfl⟩ := Option.map_eq_some_iff.mp h
      exact .bufs ‹_› (asks_of d rs ns q' h1)
    · cases h
  | .buf :: rs, p :: l :: ns, q, h => by
    simp only [ask] at h
    split at h
    · obtain ⟨q', h1, rfl⟩ := Option.map_eq_some_iff.mp h
      exact .buf ‹_› (asks_of d rs ns q' h1)
    · cases h
  | .poll :: rs, i :: o :: n :: ns, q, h => by
    simp only [ask] at h
    split at h
    · rename_i hc
      obtain ⟨q', h1, rfl⟩ := Option.map_eq_some_iff.mp h
      exact .poll hc.1 hc.2 (asks_of d rs ns q' h1)
    · cases h
  | .ret k :: rs, p :: ns, q, h => by
    simp only [ask] at h
    split at h
    · obtain ⟨q', h1, rfl⟩ := Option.map_eq_some_iff.mp h
      exact .ret ‹_› (asks_of d rs ns q' h1)
    · cases h
  | [], _ :: _, q, h => by simp [ask] at h
  | .num _ :: _, [], q, h => by simp [ask] at h
  | .path :: _, [], q, h => by simp [ask] at h
  | .path :: _, [_], q, h => by simp [ask] at h
  | .data :: _, [], q, h => by simp [ask] at h
  | .data :: _, [_], q, h => by simp [ask] at h
  | .bufs :: _, [], q, h => by simp [ask] at h
  | .bufs :: _, [_], q, h => by simp [ask] at h
  | .buf :: _, [], q, h => by simp [ask] at h
  | .buf :: _, [_], q, h => by simp [ask] at h
  | .poll :: _, [], q, h => by simp [ask] at h
  | .poll :: _, [_], q, h => by simp [ask] at h
  | .poll :: _, [_, _], q, h => by simp [ask] at h
  | .ret _ :: _, [], q, h => by simp [ask] at h

/-- the places named by the arguments are the places in guest memory -/
theorem Asks.sizes {d : List Byte} {rs : List Role} {ns : List Nat} {na : List NArg} {rg : List (Nat × Nat)} (h : Asks d rs ns na rg) :
    (places na).map (·.1) = rg.map (·.2) := by
  induction h with
  | nil => rfl
  | num _ _ ih => exact ih
  | path _ _ _ ih => exact ih
  | data _ _ ih => exact ih
  | bufs _ _ ih => simp [places, ih, Function.comp_def]
  | buf _ _ ih => simp [places, ih]
  | poll _ _ _ ih => simp [places, ih]
  | ret _ _ ih => simp [places, ih]

theorem par32_eq {ps : List Val} {ns : List Nat} (h : ps.map Val.num = ns) (i : Nat) {n : Nat} (hi : ns.getD i 0 = n) (hn : n < 2 ^ 32) :
    (par32 ps i).toNat = n := by
  simp only [par32, h, hi, BitVec.toNat_ofNat]
  exact Nat.mod_eq_of_lt hn

theorem par64_eq {ps : List Val} {ns : List Nat} (h : ps.map Val.num = ns) (i : Nat) {n : Nat} (hi : ns.getD i 0 = n) (hn : n < 2 ^ 64) :
    (par64 ps i).toNat = n := by
  simp only [par64, h, hi, BitVec.toNat_ofNat]
  exact Nat.mod_eq_of_lt hn

theorem num_lt32 {v : Val} (h : v.cls = .i32) : v.num < 2 ^ 32 := by
  obtain ⟨c, x⟩ := v
  simp only at h
  subst h
  exact BitVec.isLt (w := 32) x

end Verif.Lemmas
