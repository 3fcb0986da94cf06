import Verif.Props.Memory
/-
Property theorems C27 (HashMap) and C28 (BTreeMap).
-/
set_option linter.unusedSimpArgs false
namespace Rudy.Data
open Rudy Rudy.Layout

/-! ### C27: HashMap

Specification: a table has `n` buckets; bucket `i` lies at `ctrl - (i+1) * pairSize`, below the control
bytes, and is occupied when its control byte is below 0x80. -/

/-- The occupied buckets, in ascending order. -/
def occupied (bytes : List UInt8) : List Nat :=
  (List.range bytes.length).filter fun i => bytes[i]?.any fun b => b < 0x80

/-- Addresses of the key and the value in bucket `i`. -/
def bucketEntry (ctrl pairSize keyOff valueOff i : Nat) : Nat × Nat :=
  (ctrl - (i + 1) * pairSize + keyOff, ctrl - (i + 1) * pairSize + valueOff)

/-- Occupied buckets of a suffix of the control bytes starting at bucket `i`. -/
def occFrom : Nat → List UInt8 → List Nat
  | _, [] => []
  | i, c :: cs => if c < 0x80 then i :: occFrom (i + 1) cs else occFrom (i + 1) cs

theorem occFrom_eq (i : Nat) (bytes : List UInt8) :
    occFrom i bytes = (occupied bytes).map (· + i) := by
  induction bytes generalizing i with
  | nil => rfl
  | cons c cs ih =>
    have hrec : ((List.range (cs.length + 1)).filter fun j => (c :: cs)[j]?.any fun b => decide (b < 0x80)) =
        (if c < 0x80 then [0] else []) ++ (occupied cs).map (· + 1) := by
      rw [List.range_succ_eq_map, List.filter_cons]
      have e : List.filter (fun j => (c :: cs)[j]?.any fun b => decide (b < 0x80)) (List.map Nat.succ (List.range cs.length)) =
          (occupied cs).map (· + 1) := by
        rw [List.filter_map]; rfl
      by_cases hc : c < 0x80
      · simp only [List.getElem?_cons_zero, Option.any_some, decide_eq_true_eq, hc, if_true, e]; rfl
      · simp only [List.getElem?_cons_zero, Option.any_some, decide_eq_true_eq, hc, if_false, e]; rfl
    simp only [occFrom]
    rw [ih]
    unfold occupied at hrec ⊢
    rw [List.length_cons, hrec]
    by_cases hc : c < 0x80
    · simp only [hc, if_true, List.map_append, List.map_cons, List.map_nil, List.map_map, Nat.zero_add,
        List.singleton_append]
      congr 1
      apply List.map_congr_left; intro x _; simp only [Function.comp]; omega
    · simp only [hc, if_false, List.nil_append, List.map_map]
      apply List.map_congr_left; intro x _; simp only [Function.comp]; omega

theorem hashEntries_sound (ps ko vo items ctrl : Nat) (bytes : List UInt8) (i found : Nat)
    (hi : (i + 1) * ps ≤ ctrl) (hf : found < items) (r : List (Nat × Nat))
    (h : hashEntries ps ko vo items found (ctrl - (i + 1) * ps) bytes = .ok r) :
    r = ((occFrom i bytes).take (items - found)).map (bucketEntry ctrl ps ko vo) := by
  induction bytes generalizing i found r with
  | nil => simp [hashEntries] at h; simp [occFrom, h]
  | cons c cs ih =>
    have hs : (i + 1 + 1) * ps = (i + 1) * ps + ps := by rw [Nat.add_mul (i + 1) 1, Nat.one_mul]
    simp only [hashEntries] at h
    by_cases hc : c < 0x80
    · rw [if_pos hc] at h
      simp only [Res.bind_eq_ok] at h
      obtain ⟨k, hk, v, hv, h⟩ := h
      obtain ⟨_, rfl⟩ := addU_eq_ok.1 hk
      obtain ⟨_, rfl⟩ := addU_eq_ok.1 hv
      have e : items - found = (items - found - 1) + 1 := by omega
      simp only [occFrom, hc, if_true]
      rw [e, List.take_succ_cons, List.map_cons]
      by_cases hd : found + 1 ≥ items
      · rw [if_pos hd] at h
        cases h
        rw [show items - found - 1 = 0 by omega]
        rfl
      · rw [if_neg hd] at h
        simp only [Res.bind_eq_ok] at h
        obtain ⟨s, hsub, r', hr, h⟩ := h
        cases h
        unfold subU at hsub
        split at hsub
        · rename_i hle
          cases hsub
          have := ih (i + 1) (found + 1) (by omega) (by omega) r' (by
            rw [show ctrl - (i + 1 + 1) * ps = ctrl - (i + 1) * ps - ps by omega]; exact hr)
          rw [this, show items - (found + 1) = items - found - 1 by omega]
          rfl
        · cases hsub
    · rw [if_neg hc] at h
      simp only [Res.bind_eq_ok] at h
      obtain ⟨s, hsub, h⟩ := h
      simp only [occFrom, hc, if_false]
      unfold subU at hsub
      split at hsub
      · rename_i hle
        cases hsub
        exact ih (i + 1) found (by omega) hf r (by
          rw [show ctrl - (i + 1 + 1) * ps = ctrl - (i + 1) * ps - ps by omega]; exact h)
      · cases hsub

theorem hashEntries_complete (ps ko vo items ctrl : Nat) (bytes : List UInt8) (i found : Nat)
    (hi : (i + bytes.length) * ps ≤ ctrl) (hc64 : ctrl < u64Max1) (hko : ko ≤ ps) (hvo : vo ≤ ps)
    (hf : found < items) (hcount : (occFrom i bytes).length = items - found) :
    hashEntries ps ko vo items found (ctrl - (i + 1) * ps) bytes =
      .ok ((occFrom i bytes).map (bucketEntry ctrl ps ko vo)) := by
  induction bytes generalizing i found with
  | nil => simp [occFrom] at hcount; omega
  | cons c cs ih =>
    have hs : (i + 1 + 1) * ps = (i + 1) * ps + ps := by rw [Nat.add_mul (i + 1) 1, Nat.one_mul]
    have hs2 : (i + (c :: cs).length) * ps = (i + 1) * ps + cs.length * ps := by
      rw [List.length_cons, ← Nat.add_mul]; congr 1; omega
    have hs3 : (i + 1) * ps = i * ps + ps := by rw [Nat.add_mul, Nat.one_mul]
    have hle1 : (i + 1) * ps ≤ ctrl := by omega
    have hnext : ∀ found', found' < items → (occFrom (i + 1) cs).length = items - found' →
        (subU (ctrl - (i + 1) * ps) ps).bind (fun s => hashEntries ps ko vo items found' s cs) =
          .ok ((occFrom (i + 1) cs).map (bucketEntry ctrl ps ko vo)) := by
      intro found' hf' hcnt
      have hne : cs ≠ [] := by
        rintro rfl; simp [occFrom] at hcnt; omega
      have hpos : 1 ≤ cs.length := by cases cs <;> simp_all
      have : ps ≤ cs.length * ps := by
        calc ps = 1 * ps := (Nat.one_mul ps).symm
          _ ≤ cs.length * ps := Nat.mul_le_mul_right ps hpos
      rw [subU_ok (by omega), Res.bind_ok, show ctrl - (i + 1) * ps - ps = ctrl - (i + 1 + 1) * ps by omega]
      exact ih (i + 1) found' (by rw [List.length_cons] at hi; rw [show i + 1 + cs.length = i + (cs.length + 1) by omega]; exact hi) hf' hcnt
    simp only [hashEntries]
    by_cases hc : c < 0x80
    · simp only [occFrom, hc, if_true, List.length_cons] at hcount
      simp only [occFrom, hc, if_true, List.map_cons]
      rw [addU_ok (by omega), Res.bind_ok, addU_ok (by omega), Res.bind_ok]
      by_cases hd : found + 1 ≥ items
      · rw [if_pos hd]
        have : occFrom (i + 1) cs = [] := List.length_eq_zero_iff.1 (by omega)
        rw [this]; rfl
      · rw [if_neg hd]
        have hb : ∀ (x : Res Nat) (g : Nat → Res (List (Nat × Nat))) (p : Nat × Nat) (l : List (Nat × Nat)),
            x.bind g = .ok l → (x.bind fun s => (g s).bind fun r => .ok (p :: r)) = .ok (p :: l) := by
          intro x g p l h
          cases x <;> simp_all
        exact hb _ _ _ _ (hnext (found + 1) (by omega) (by omega))
    · simp only [occFrom, hc, if_false] at hcount
      simp only [occFrom, hc, if_false]
      exact hnext found hf hcount

section
variable (T : Target) (m : Mem) (hT : T.Reads m) (f a : Nat) (loc : Option Nat)
  (maskOff ctrlOff itemsOff ps ko vo : Nat) (k w : TypeDef)
include hT

/-- C27: whatever memory holds, a displayed HashMap shows only occupied buckets, in bucket order, each
once, at the bucket's address below the control bytes; at most `items` of them. -/
theorem C27_only_occupied (v : Value)
    (h : readMem T (f + 1) a (.mk loc (.map (.hashMap maskOff ctrlOff itemsOff ps ko vo) k w)) = .ok v) :
    ∃ items, m.HoldsNat (a + itemsOff) 8 items ∧
      (items = 0 ∧ v = .map (chars! "HashMap<" ++ k.displayName ++ chars! ", " ++ w.displayName ++ chars! ">") [] ∨
      ∃ mask ctrl bytes, m.HoldsNat (a + maskOff) 8 mask ∧ m.HoldsNat (a + ctrlOff) 8 ctrl ∧
        bytes.length = mask + 1 ∧ m.HoldsBytes ctrl bytes ∧
        v = .map (chars! "HashMap<" ++ k.displayName ++ chars! ", " ++ w.displayName ++ chars! ">")
          (((occupied bytes).take items).map fun i =>
            (.pointer (bucketEntry ctrl ps ko vo i).1 k, .pointer (bucketEntry ctrl ps ko vo i).2 w))) := by
  simp only [readMem, readLayout, Res.bind_eq_ok] at h
  obtain ⟨es, h, hv⟩ := h
  cases hv
  simp only [mapEntries, Res.bind_eq_ok] at h
  obtain ⟨ma, h1, ca, h2, ia, h3, items, h4, h⟩ := h
  obtain ⟨_, rfl⟩ := addU_eq_ok.1 h1
  obtain ⟨_, rfl⟩ := addU_eq_ok.1 h2
  obtain ⟨_, rfl⟩ := addU_eq_ok.1 h3
  refine ⟨items, (readNat_ok hT _ _ _).1 h4, ?_⟩
  by_cases h0 : items = 0
  · rw [if_pos h0] at h; cases h
    exact Or.inl ⟨h0, rfl⟩
  · rw [if_neg h0] at h
    simp only [Res.bind_eq_ok] at h
    obtain ⟨mask, h5, cap, h6, ctrl, h7, slot, h8, bytes, h9, h10⟩ := h
    obtain ⟨_, rfl⟩ := addU_eq_ok.1 h6
    rw [readAddress_eq hT] at h7
    obtain ⟨hl, hb⟩ := (m.slice_eq_some _ _ _).1 ((readE_ok hT _ _ _).1 h9)
    refine Or.inr ⟨mask, ctrl, bytes, (readNat_ok hT _ _ _).1 h5, (readNat_ok hT _ _ _).1 h7, hl, hb, ?_⟩
    unfold subU at h8
    split at h8
    · rename_i hle
      cases h8
      have := hashEntries_sound ps ko vo items ctrl bytes 0 0 (by simpa using hle) (by omega) es (by simpa using h10)
      rw [this, occFrom_eq]
      have e0 : (fun x : Nat => x + 0) = id := rfl
      rw [e0, List.map_id, List.map_map, Nat.sub_zero]
      rfl
    · cases h8

/-- C27: a well-formed HashMap (as many occupied buckets as `items`) is shown completely: one entry per
occupied bucket, in bucket order, and as many entries as `items`. -/
theorem C27_entries (n ctrl : Nat) (bytes : List UInt8)
    (hma : a + maskOff < u64Max1) (hca : a + ctrlOff < u64Max1) (hia : a + itemsOff < u64Max1)
    (hm : m.HoldsNat (a + maskOff) 8 n) (hn : n + 1 < u64Max1)
    (hc : m.HoldsNat (a + ctrlOff) 8 ctrl)
    (hi : m.HoldsNat (a + itemsOff) 8 (occupied bytes).length)
    (hl : bytes.length = n + 1) (hb : m.HoldsBytes ctrl bytes)
    (hlow : (n + 1) * ps ≤ ctrl) (hko : ko ≤ ps) (hvo : vo ≤ ps) :
    readMem T (f + 1) a (.mk loc (.map (.hashMap maskOff ctrlOff itemsOff ps ko vo) k w)) =
      .ok (.map (chars! "HashMap<" ++ k.displayName ++ chars! ", " ++ w.displayName ++ chars! ">")
        ((occupied bytes).map fun i =>
          (.pointer (bucketEntry ctrl ps ko vo i).1 k, .pointer (bucketEntry ctrl ps ko vo i).2 w))) := by
  have hc64 := HoldsNat_lt8 hc
  simp only [readMem, readLayout, mapEntries]
  rw [addU_ok hma, Res.bind_ok, addU_ok hca, Res.bind_ok, addU_ok hia, Res.bind_ok,
    (readNat_ok hT _ _ _).2 hi, Res.bind_ok]
  by_cases h0 : (occupied bytes).length = 0
  · rw [if_pos h0, List.length_eq_zero_iff.1 h0]; rfl
  · rw [if_neg h0, (readNat_ok hT _ _ _).2 hm, Res.bind_ok, addU_ok hn, Res.bind_ok, readAddress_eq hT,
      (readNat_ok hT _ _ _).2 hc, Res.bind_ok]
    have hle : ps ≤ ctrl := by rw [Nat.add_mul, Nat.one_mul] at hlow; omega
    rw [subU_ok hle, Res.bind_ok, (readE_ok hT _ _ _).2 ((m.slice_eq_some _ _ _).2 ⟨hl, hb⟩), Res.bind_ok]
    have e := occFrom_eq 0 bytes
    have e0 : (fun x : Nat => x + 0) = id := rfl
    rw [e0, List.map_id] at e
    have := hashEntries_complete ps ko vo (occupied bytes).length ctrl bytes 0 0 (by rw [hl, Nat.zero_add]; exact hlow)
      hc64 hko hvo (by omega) (by rw [e]; rfl)
    rw [show ctrl - ps = ctrl - (0 + 1) * ps by rw [Nat.zero_add, Nat.one_mul], this, e, Res.bind_ok, List.map_map]
    rfl

end

/-- The hypotheses are met: a table of 4 buckets at control address 100 with buckets 1 and 2 occupied. -/
example : ∃ (T : Target) (m : Mem), T.Reads m ∧ m.HoldsNat 8 8 3 ∧ m.HoldsNat 0 8 100 ∧
    occupied [0xff, 0x11, 0x22, 0x80] = [1, 2] ∧ m.HoldsNat 24 8 2 ∧ m.HoldsBytes 100 [0xff, 0x11, 0x22, 0x80] := by
  refine ⟨demoTarget (demoMem 0 ((encNat 8 100) ++ (encNat 8 3) ++ (encNat 8 0) ++ (encNat 8 2) ++
    List.replicate 68 0 ++ [0xff, 0x11, 0x22, 0x80])), _, demoTarget_reads _,
    (Mem.holdsNat_iff _ _ _ _).2 ⟨_, rfl, rfl⟩, (Mem.holdsNat_iff _ _ _ _).2 ⟨_, rfl, rfl⟩, by decide,
    (Mem.holdsNat_iff _ _ _ _).2 ⟨_, rfl, rfl⟩, ((Mem.slice_eq_some _ _ 4 _).1 rfl).2⟩

/-! ### C28: BTreeMap -/

/-- Specification: a B-tree in memory. A leaf has an address and a number of entries; an inner node has
an address and its children (one more than it has entries). -/
inductive BTree where
  | leaf (addr len : Nat)
  | inner (addr : Nat) (kids : List BTree)

def BTree.addr : BTree → Nat
  | .leaf a _ => a
  | .inner a _ => a

mutual
/-- The in-order traversal: entries as (node address, index in the node). -/
def BTree.inorder : BTree → List (Nat × Nat)
  | .leaf a n => (List.range n).map fun i => (a, i)
  | .inner a kids => inorderKids a 0 kids
/-- Child `i`, entry `i`, child `i+1`, …, last child. -/
def inorderKids (a : Nat) : Nat → List BTree → List (Nat × Nat)
  | _, [] => []
  | i, kid :: rest => kid.inorder ++ (if rest.isEmpty then [] else [(a, i)]) ++ inorderKids a (i + 1) rest
end

/-- Memory stores a node with `len` entries at `a` (inside the address space). -/
structure NodeAt (m : Mem) (nl : NodeLayout) (ks vs a len : Nat) : Prop where
  holds : m.HoldsNat (a + nl.lenOff) 2 len
  lenAddr : a + nl.lenOff < u64Max1
  keys : a + nl.keysOff + len * ks < u64Max1
  vals : a + nl.valsOff + len * vs < u64Max1

/-- Memory stores the B-tree, all of whose leaves are at depth `height`. -/
def Stored (m : Mem) (nl : NodeLayout) (ks vs : Nat) : (height : Nat) → BTree → Prop
  | 0, .leaf a n => NodeAt m nl ks vs a n
  | h + 1, .inner a kids =>
    ∃ n, kids.length = n + 1 ∧ NodeAt m nl ks vs a n ∧ a + nl.edgesOff + 8 * (n + 1) < u64Max1 ∧
      ∀ i (hi : i < kids.length), m.HoldsNat (a + nl.edgesOff + 8 * i) 8 kids[i].addr ∧ kids[i].addr ≠ 0 ∧
        Stored m nl ks vs h kids[i]
  | _, _ => False

/-- Addresses of the key and value of an entry. -/
def slotAddrs (nl : NodeLayout) (ks vs : Nat) (s : Nat × Nat) : Nat × Nat :=
  (s.1 + nl.keysOff + s.2 * ks, s.1 + nl.valsOff + s.2 * vs)

section
variable {T : Target} {m : Mem} (hT : T.Reads m) (kt vt : TypeDef) (nl : NodeLayout) (ks vs : Nat)
  (hks : kt.size = .ok (some ks)) (hvs : vt.size = .ok (some vs)) (hk : 0 < ks) (hv : 0 < vs)

include hT hks hvs in
theorem btreeHead_ok (a n : Nat) (h : NodeAt m nl ks vs a n) :
    btreeHead T kt vt nl a = .ok (n, ks, vs, a + nl.keysOff, a + nl.valsOff) := by
  have h1 := h.keys
  have h2 := h.vals
  unfold btreeHead
  rw [addU_ok h.lenAddr, Res.bind_ok, (readNat_ok hT _ _ _).2 h.holds, Res.bind_ok, (elemSize_ok _ _).2 hks, Res.bind_ok,
    (elemSize_ok _ _).2 hvs, Res.bind_ok, addU_ok (by omega), Res.bind_ok, addU_ok (by omega), Res.bind_ok]

include hk hv in
theorem leafLoop (a n : Nat) (hn : NodeAt m nl ks vs a n) (left i : Nat) (hl : left + i = n) :
    btreeLoop T ks vs (a + nl.keysOff) (a + nl.valsOff) none left i =
      .ok (((List.range left).map fun j => (a, i + j)).map (slotAddrs nl ks vs)) := by
  induction left generalizing i with
  | zero => rfl
  | succ left ih =>
    have h1 := hn.keys
    have h2 := hn.vals
    have e1 : i * ks ≤ n * ks := Nat.mul_le_mul_right ks (by omega)
    have e2 : i * vs ≤ n * vs := Nat.mul_le_mul_right vs (by omega)
    simp only [btreeLoop, btreeEdge, Res.bind_ok]
    rw [if_pos ⟨hk, hv⟩, mulU_ok (by omega), Res.bind_ok, addU_ok (by omega), Res.bind_ok, mulU_ok (by omega),
      Res.bind_ok, addU_ok (by omega), Res.bind_ok, ih (i + 1) (by omega), Res.bind_ok]
    congr 1
    rw [List.range_succ_eq_map]
    simp only [List.map_cons, List.map_map, List.nil_append]
    congr 1
    apply List.map_congr_left
    intro j _
    simp only [Function.comp, Nat.succ_eq_add_one]
    congr 2
    omega

include hT hk hv in
theorem innerLoop (a n : Nat) (hn : NodeAt m nl ks vs a n) (sub : Nat → Res (List (Nat × Nat)))
    (hed : a + nl.edgesOff + 8 * (n + 1) < u64Max1) (kids : List BTree) (left i : Nat) (hl : left + i = n)
    (hlen : kids.length = left + 1)
    (hkids : ∀ j (hj : j < kids.length), m.HoldsNat (a + nl.edgesOff + 8 * (i + j)) 8 kids[j].addr ∧
      kids[j].addr ≠ 0 ∧ sub kids[j].addr = .ok (kids[j].inorder.map (slotAddrs nl ks vs))) :
    btreeLoop T ks vs (a + nl.keysOff) (a + nl.valsOff) (some (a + nl.edgesOff, sub)) left i =
      .ok ((inorderKids a i kids).map (slotAddrs nl ks vs)) := by
  induction left generalizing i kids with
  | zero =>
    match kids, hlen with
    | [kid], _ =>
      obtain ⟨h1, h2, h3⟩ := hkids 0 (by simp)
      simp only [List.getElem_cons_zero, Nat.add_zero] at h1 h2 h3
      simp only [btreeLoop, btreeEdge]
      rw [mulU_ok (by omega), Res.bind_ok, addU_ok (by omega), Res.bind_ok, Nat.mul_comm i 8, readAddress_eq hT,
        (readNat_ok hT _ _ _).2 h1, Res.bind_ok, if_pos h2, h3]
      simp [inorderKids]
  | succ left ih =>
    match kids, hlen with
    | kid :: kid' :: rest, hlen =>
      have hb1 := hn.keys
      have hb2 := hn.vals
      have e1 : i * ks ≤ n * ks := Nat.mul_le_mul_right ks (by omega)
      have e2 : i * vs ≤ n * vs := Nat.mul_le_mul_right vs (by omega)
      obtain ⟨h1, h2, h3⟩ := hkids 0 (by simp)
      simp only [List.getElem_cons_zero, Nat.add_zero] at h1 h2 h3
      simp only [btreeLoop, btreeEdge]
      rw [mulU_ok (by omega), Res.bind_ok, addU_ok (by omega), Res.bind_ok, Nat.mul_comm i 8, readAddress_eq hT,
        (readNat_ok hT _ _ _).2 h1, Res.bind_ok, if_pos h2, h3, Res.bind_ok, if_pos ⟨hk, hv⟩, mulU_ok (by omega),
        Res.bind_ok, addU_ok (by omega), Res.bind_ok, mulU_ok (by omega), Res.bind_ok, addU_ok (by omega), Res.bind_ok]
      rw [ih (kid' :: rest) (i + 1) (by omega) (by simpa using hlen) ?_, Res.bind_ok]
      · simp [inorderKids, slotAddrs]
      · intro j hj
        have := hkids (j + 1) (by simpa using hj)
        simp only [List.getElem_cons_succ] at this
        rw [show i + 1 + j = i + (j + 1) by omega]
        exact this

include hT hks hvs hk hv in
theorem btreeNode_inorder (h : Nat) (t : BTree) (hs : Stored m nl ks vs h t) :
    btreeNode T kt vt nl h t.addr = .ok (t.inorder.map (slotAddrs nl ks vs)) := by
  induction h generalizing t with
  | zero =>
    cases t with
    | leaf a n =>
      simp only [Stored] at hs
      simp only [btreeNode, BTree.addr]
      rw [btreeHead_ok hT kt vt nl ks vs hks hvs a n hs, Res.bind_ok]
      simp only
      rw [leafLoop nl ks vs hk hv a n hs n 0 (by omega)]
      simp only [BTree.inorder, Nat.zero_add]
    | inner a kids => simp [Stored] at hs
  | succ h ih =>
    cases t with
    | leaf a n => simp [Stored] at hs
    | inner a kids =>
      simp only [Stored] at hs
      obtain ⟨n, hlen, hn, hed, hkids⟩ := hs
      simp only [btreeNode, BTree.addr]
      rw [btreeHead_ok hT kt vt nl ks vs hks hvs a n hn, Res.bind_ok]
      simp only
      rw [addU_ok (by omega), Res.bind_ok,
        innerLoop hT nl ks vs hk hv a n hn _ hed kids n 0 (by omega) hlen ?_]
      · simp only [BTree.inorder]
      · intro j hj
        obtain ⟨h1, h2, h3⟩ := hkids j hj
        rw [Nat.zero_add]
        exact ⟨h1, h2, ih _ h3⟩

end

/-- C28: a BTreeMap of any height and fill is shown as exactly the entries of its tree, in in-order. (The
root pointer is the first word of the root, as rustc lays it out, and keys and values have a size.) -/
theorem C28_inorder_partial (T : Target) (m : Mem) (hT : T.Reads m) (f a : Nat) (loc : Option Nat)
    (lengthOff rootOff heightOff : Nat) (nl : NodeLayout) (k w : TypeDef) (ks vs : Nat)
    (hks : k.size = .ok (some ks)) (hvs : w.size = .ok (some vs)) (hk : 0 < ks) (hv : 0 < vs)
    (h : Nat) (t : BTree) (hst : Stored m nl ks vs h t) (h0 : t.addr ≠ 0)
    (hlen : m.HoldsNat (a + lengthOff) 8 t.inorder.length)
    (hroot : m.HoldsNat (a + rootOff) 8 t.addr) (hheight : m.HoldsNat (a + rootOff + heightOff) 8 h)
    (ha1 : a + lengthOff < u64Max1) (ha2 : a + rootOff + heightOff < u64Max1) :
    readMem T (f + 1) a (.mk loc (.map (.btreeMap lengthOff rootOff 0 heightOff nl) k w)) =
      .ok (.map (chars! "BTreeMap<" ++ k.displayName ++ chars! ", " ++ w.displayName ++ chars! ">")
        (t.inorder.map fun s =>
          (.pointer (s.1 + nl.keysOff + s.2 * ks) k, .pointer (s.1 + nl.valsOff + s.2 * vs) w))) := by
  simp only [readMem, readLayout, mapEntries]
  rw [addU_ok ha1, Res.bind_ok, (readNat_ok hT _ _ _).2 hlen, Res.bind_ok]
  by_cases he : t.inorder.length = 0
  · rw [if_pos he, List.length_eq_zero_iff.1 he]; rfl
  · rw [if_neg he, addU_ok (by omega), Res.bind_ok, (readNat_ok hT _ _ _).2 hroot, Res.bind_ok, if_neg h0,
      addU_ok (by omega), Res.bind_ok, addU_ok ha2, Res.bind_ok, Nat.add_zero, readAddress_eq hT,
      (readNat_ok hT _ _ _).2 hroot, Res.bind_ok, (readNat_ok hT _ _ _).2 hheight, Res.bind_ok,
      btreeNode_inorder hT k w nl ks vs hks hvs hk hv h t hst, Res.bind_ok, List.map_map]
    rfl

mutual
/-- Specification: a search tree for the key order `lt` (`key s` is the key of entry `s`): in a leaf the
keys ascend; in an inner node everything in child `i` is below entry `i`, which is below everything in
child `i+1`. -/
def SearchTree {κ : Type} (lt : κ → κ → Prop) (key : Nat × Nat → κ) : BTree → Prop
  | .leaf a n => ∀ i j, i < j → j < n → lt (key (a, i)) (key (a, j))
  | .inner a kids => SearchKids lt key a 0 kids
def SearchKids {κ : Type} (lt : κ → κ → Prop) (key : Nat × Nat → κ) (a : Nat) : Nat → List BTree → Prop
  | _, [] => True
  | i, kid :: rest => SearchTree lt key kid ∧ SearchKids lt key a (i + 1) rest ∧
    (∀ s ∈ kid.inorder, rest ≠ [] → lt (key s) (key (a, i))) ∧
    (∀ s ∈ inorderKids a (i + 1) rest, lt (key (a, i)) (key s))
end

mutual
theorem inorder_sorted {κ : Type} (lt : κ → κ → Prop) (htr : ∀ x y z, lt x y → lt y z → lt x z)
    (key : Nat × Nat → κ) : ∀ t : BTree, SearchTree lt key t → t.inorder.Pairwise (fun s s' => lt (key s) (key s'))
  | .leaf a n, h => by
    simp only [SearchTree] at h
    simp only [BTree.inorder, List.pairwise_map]
    refine List.Pairwise.imp_of_mem ?_ (List.pairwise_lt_range (n := n))
    intro i j _ hj hij
    exact h i j hij (List.mem_range.1 hj)
  | .inner a kids, h => by
    simp only [SearchTree] at h
    simp only [BTree.inorder]
    exact inorderKids_sorted lt htr key a 0 kids h
theorem inorderKids_sorted {κ : Type} (lt : κ → κ → Prop) (htr : ∀ x y z, lt x y → lt y z → lt x z)
    (key : Nat × Nat → κ) (a : Nat) : ∀ (i : Nat) (kids : List BTree), SearchKids lt key a i kids →
      (inorderKids a i kids).Pairwise (fun s s' => lt (key s) (key s'))
  | _, [], _ => by simp [inorderKids]
  | i, kid :: rest, h => by
    simp only [SearchKids] at h
    obtain ⟨h1, h2, h3, h4⟩ := h
    have ih1 := inorder_sorted lt htr key kid h1
    have ih2 := inorderKids_sorted lt htr key a (i + 1) rest h2
    cases rest with
    | nil => simpa [inorderKids] using ih1
    | cons r rs =>
      simp only [inorderKids] at ih2 h4
      rw [inorderKids]
      simp only [List.isEmpty_cons, Bool.false_eq_true, if_false, List.append_assoc, List.singleton_append]
      rw [List.pairwise_append]
      refine ⟨ih1, ?_, ?_⟩
      · rw [List.pairwise_cons]
        exact ⟨fun s hs => h4 s (by simpa [inorderKids] using hs), by simpa [inorderKids] using ih2⟩
      · intro s hs s' hs'
        have hlt := h3 s hs (by simp)
        rcases List.mem_cons.1 hs' with rfl | hs'
        · exact hlt
        · exact htr _ _ _ hlt (h4 s' (by simpa [inorderKids] using hs'))
end

/-- C28: … which, for a search tree, is ascending key order. -/
theorem C28_key_order {κ : Type} (lt : κ → κ → Prop) (htr : ∀ x y z, lt x y → lt y z → lt x z)
    (key : Nat × Nat → κ) (t : BTree) (h : SearchTree lt key t) :
    t.inorder.Pairwise (fun s s' => lt (key s) (key s')) := inorder_sorted lt htr key t h

/-- C28 is false of the code for maps with zero-sized keys or values (`BTreeMap<u32, ()>`): their entries
are skipped, so the map is shown without entries although `len()` is not zero. -/
theorem C28_zero_sized_fails :
    ∃ (T : Target) (m : Mem) (nl : NodeLayout), T.Reads m ∧
      Stored m nl 4 0 0 (.leaf 100 2) ∧ m.HoldsNat 16 8 2 ∧
      readMem T 1 0 (.mk none (.map (.btreeMap 16 0 0 8 nl) (.mk none (.uint 4)) (.mk none .unit))) =
        .ok (.map (chars! "BTreeMap<u32, ()>") []) := by
  refine ⟨demoTarget (demoMem 0 ((encNat 8 100) ++ (encNat 8 0) ++ (encNat 8 2) ++ List.replicate 76 0 ++ [2, 0])), _,
    ⟨4, 50, 0, 60⟩, demoTarget_reads _, ?_, (Mem.holdsNat_iff _ _ _ _).2 ⟨_, rfl, rfl⟩, rfl⟩
  simp only [Stored]
  exact ⟨(Mem.holdsNat_iff _ _ _ _).2 ⟨_, rfl, rfl⟩, by decide, by decide, by decide⟩

/-- C28 is false of the code for a root layout that stores the height before the node pointer: a map
consisting of one leaf (height 0) is taken for an empty map. -/
theorem C28_height_first_fails :
    ∃ (T : Target) (m : Mem) (nl : NodeLayout), T.Reads m ∧
      Stored m nl 4 4 0 (.leaf 100 2) ∧ m.HoldsNat 16 8 2 ∧ m.HoldsNat (0 + 8) 8 100 ∧ m.HoldsNat 0 8 0 ∧
      readMem T 1 0 (.mk none (.map (.btreeMap 16 0 8 0 nl) (.mk none (.uint 4)) (.mk none (.uint 4)))) =
        .ok (.map (chars! "BTreeMap<u32, u32>") []) := by
  refine ⟨demoTarget (demoMem 0 ((encNat 8 0) ++ (encNat 8 100) ++ (encNat 8 2) ++ List.replicate 76 0 ++ [2, 0])), _,
    ⟨4, 50, 0, 60⟩, demoTarget_reads _, ?_, (Mem.holdsNat_iff _ _ _ _).2 ⟨_, rfl, rfl⟩,
    (Mem.holdsNat_iff _ _ _ _).2 ⟨_, rfl, rfl⟩, (Mem.holdsNat_iff _ _ _ _).2 ⟨_, rfl, rfl⟩, rfl⟩
  simp only [Stored]
  exact ⟨(Mem.holdsNat_iff _ _ _ _).2 ⟨_, rfl, rfl⟩, by decide, by decide, by decide⟩

/-- C28 is false of the code for maps whose keys or values are of a user's own type (known by name only, data.rs:907-912 does
not look it up): with at least one entry they are never shown. -/
theorem C28_user_types_fails (T : Target) (m : Mem) (hT : T.Reads m) (f a : Nat) (loc : Option Nat)
    (lengthOff rootOff nodeOff heightOff : Nat) (nl : NodeLayout) (k w : TypeDef) (hkw : (∃ n, k.layout = .alias n) ∨ ∃ n, w.layout = .alias n)
    (len root : Nat) (hlen : m.HoldsNat (a + lengthOff) 8 len) (hl : len ≠ 0) (ha : a + lengthOff < u64Max1)
    (hroot : m.HoldsNat (a + rootOff) 8 root) (hr : root ≠ 0) (ha2 : a + rootOff < u64Max1) (v : Value) :
    readMem T (f + 1) a (.mk loc (.map (.btreeMap lengthOff rootOff nodeOff heightOff nl) k w)) ≠ .ok v := by
  have hsz : ∀ t : TypeDef, (∃ n, t.layout = .alias n) → ∀ x, elemSize t ≠ .ok x := by
    rintro ⟨l, t⟩ ⟨n, h⟩ x hx
    simp only [TypeDef.layout] at h
    subst h
    simp [elemSize, TypeDef.size, Layout.size, Res.ofOption] at hx
  have hhead : ∀ node x, btreeHead T k w nl node ≠ .ok x := by
    intro node x hx
    simp only [btreeHead, Res.bind_eq_ok] at hx
    obtain ⟨_, _, _, _, ks, h1, vs, h2, _⟩ := hx
    rcases hkw with h | h
    · exact hsz k h ks h1
    · exact hsz w h vs h2
  have hnode : ∀ h node x, btreeNode T k w nl h node ≠ .ok x := by
    intro h node x hx
    cases h with
    | zero => simp only [btreeNode, Res.bind_eq_ok] at hx; obtain ⟨y, h1, _⟩ := hx; exact hhead _ _ h1
    | succ h => simp only [btreeNode, Res.bind_eq_ok] at hx; obtain ⟨y, h1, _⟩ := hx; exact hhead _ _ h1
  intro h
  simp only [readMem, readLayout, mapEntries] at h
  rw [addU_ok ha, Res.bind_ok, (readNat_ok hT _ _ _).2 hlen, Res.bind_ok, if_neg hl, addU_ok ha2, Res.bind_ok,
    (readNat_ok hT _ _ _).2 hroot, Res.bind_ok, if_neg hr] at h
  simp only [Res.bind_eq_ok] at h
  obtain ⟨es, ⟨_, _, _, _, _, _, _, _, h1⟩, _⟩ := h
  exact hnode _ _ _ h1

/-- The hypotheses of `C28_user_types_fails` are met: `BTreeMap<u32, S>` with two entries. -/
example (v : Value) : readMem (demoTarget (demoMem 0 ((encNat 8 100) ++ (encNat 8 0) ++ (encNat 8 2)))) 1 0
    (.mk none (.map (.btreeMap 16 0 0 8 ⟨4, 50, 0, 60⟩) (.mk none (.uint 4)) (.mk (some 1) (.alias (chars! "S"))))) ≠ .ok v :=
  C28_user_types_fails _ _ (demoTarget_reads _) 0 0 _ _ _ _ _ _ _ _ (.inr ⟨_, rfl⟩) 2 100
    ((Mem.holdsNat_iff _ _ _ _).2 ⟨_, rfl, rfl⟩) (by decide) (by decide) ((Mem.holdsNat_iff _ _ _ _).2 ⟨_, rfl, rfl⟩) (by decide)
    (by decide) v

/-- The hypotheses of `C28_inorder_partial` are met by a two-level tree: root 300 with one entry and
leaves at 100 and 200, with one entry each. -/
example : ∃ m : Mem, Stored m ⟨8, 16, 0, 24⟩ 4 4 1 (.inner 300 [.leaf 100 1, .leaf 200 1]) ∧
    (BTree.inner 300 [.leaf 100 1, .leaf 200 1]).inorder = [(100, 0), (300, 0), (200, 0)] := by
  refine ⟨demoMem 0 (List.replicate 100 0 ++ [1, 0] ++ List.replicate 98 0 ++ [1, 0] ++ List.replicate 98 0 ++ [1, 0] ++
    List.replicate 22 0 ++ encNat 8 100 ++ encNat 8 200), ?_, by decide⟩
  refine ⟨1, rfl, ⟨(Mem.holdsNat_iff _ _ _ _).2 ⟨_, rfl, rfl⟩, by decide, by decide, by decide⟩, by decide, ?_⟩
  intro i hi
  have : i = 0 ∨ i = 1 := by simp at hi; omega
  rcases this with rfl | rfl
  · exact ⟨(Mem.holdsNat_iff _ _ _ _).2 ⟨_, rfl, rfl⟩, by simp [BTree.addr],
      ⟨(Mem.holdsNat_iff _ _ _ _).2 ⟨_, rfl, rfl⟩, by decide, by decide, by decide⟩⟩
  · exact ⟨(Mem.holdsNat_iff _ _ _ _).2 ⟨_, rfl, rfl⟩, by simp [BTree.addr],
      ⟨(Mem.holdsNat_iff _ _ _ _).2 ⟨_, rfl, rfl⟩, by decide, by decide, by decide⟩⟩

end Rudy.Data
