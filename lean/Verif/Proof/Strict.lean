import Verif.Proof.ShownReads
/-
Debuggers that refuse to read no bytes (as LLDB does): a value in which no text is empty is read and shown as by a debugger
that answers such reads.
-/
set_option linter.unusedSimpArgs false
namespace Rudy.Shown
open Rudy Rudy.Layout Rudy.Data Rudy.Eval

/-- Specification: the text `t` stands somewhere in a printed value by itself. -/
inductive RVal.Has : RVal → Str → Prop
  | leaf {t : Str} : Has (.leaf t) t
  | seq {vs : List RVal} {v : RVal} {t : Str} : v ∈ vs → Has v t → Has (.seq vs) t
  | record {n : Str} {fs : List (Str × RVal)} {f : Str × RVal} {t : Str} : f ∈ fs → Has f.2 t → Has (.record n fs) t
  | tuple {n : Str} {vs : List RVal} {v : RVal} {t : Str} : v ∈ vs → Has v t → Has (.tuple n vs) t
  | key {es : List (RVal × RVal)} {e : RVal × RVal} {t : Str} : e ∈ es → Has e.1 t → Has (.map es) t
  | value {es : List (RVal × RVal)} {e : RVal × RVal} {t : Str} : e ∈ es → Has e.2 t → Has (.map es) t

/-- `T'` reads as `T` does, except that it may answer differently when asked for no bytes. -/
structure Strict (T' T : Target) : Prop where
  read : ∀ a n, n ≠ 0 → T'.read a n = T.read a n
  resolve : T'.resolve = T.resolve
  lossy : T'.lossy = T.lossy
  floatStr : T'.floatStr = T.floatStr

namespace Strict
variable {T' T : Target} (h : Strict T' T)
include h

theorem readE (a n : Nat) (hn : n ≠ 0) : T'.readE a n = T.readE a n := by
  unfold Target.readE; rw [h.read a n hn]

theorem readExact (a n : Nat) (hn : n ≠ 0) : T'.readExact a n = T.readExact a n := by
  unfold Target.readExact; rw [h.readE a n hn]

theorem readNat (a n : Nat) (hn : n ≠ 0) : T'.readNat a n = T.readNat a n := by
  unfold Target.readNat; rw [h.readExact a n hn]

theorem readAddress (a : Nat) : T'.readAddress a = T.readAddress a := by
  unfold Target.readAddress; rw [h.readE a 8 (by decide)]

theorem readLen (a : Nat) : T'.readLen a = T.readLen a := by
  unfold Target.readLen; rw [h.readE a 8 (by decide)]

theorem resolveAt (o : Option Nat) : T'.resolveAt o = T.resolveAt o := by
  cases o with
  | none => rfl
  | some e => simp only [Target.resolveAt, h.resolve]

theorem resolveAlias (t : TypeDef) : T'.resolveAlias t = T.resolveAlias t := by
  unfold Target.resolveAlias; simp only [h.resolveAt]

theorem btreeEdge (edges : Option (Nat × (Nat → Res (List (Nat × Nat))))) (i : Nat) :
    Data.btreeEdge T' edges i = Data.btreeEdge T edges i := by
  unfold Data.btreeEdge; simp only [h.readAddress]

theorem btreeLoop (ks vs keysA valsA : Nat) (edges : Option (Nat × (Nat → Res (List (Nat × Nat))))) (left i : Nat) :
    Data.btreeLoop T' ks vs keysA valsA edges left i = Data.btreeLoop T ks vs keysA valsA edges left i := by
  induction left generalizing i with
  | zero => simp only [Data.btreeLoop, h.btreeEdge]
  | succ n ih => simp only [Data.btreeLoop, h.btreeEdge, ih]

theorem btreeNode (kt vt : TypeDef) (nl : NodeLayout) (height node : Nat) :
    Data.btreeNode T' kt vt nl height node = Data.btreeNode T kt vt nl height node := by
  have hh : ∀ node, btreeHead T' kt vt nl node = btreeHead T kt vt nl node := by
    intro node; simp only [btreeHead, h.readNat _ 2 (by decide)]
  induction height generalizing node with
  | zero => simp only [Data.btreeNode, hh, h.btreeLoop]
  | succ n ih =>
    have : Data.btreeNode T' kt vt nl n = Data.btreeNode T kt vt nl n := funext ih
    simp only [Data.btreeNode, hh, h.btreeLoop, this]

theorem mapEntries (a : Nat) (v : MapVariant) (kt vt : TypeDef) :
    Data.mapEntries T' a v kt vt = Data.mapEntries T a v kt vt := by
  cases v with
  | hashMap mo co io ps ko vo =>
    simp only [Data.mapEntries, h.readNat _ 8 (by decide), h.readAddress]
    congr 1; funext maskA; congr 1; funext ctrlA; congr 1; funext itemsA; congr 1; funext items
    split
    · rfl
    · congr 1; funext mask
      cases hc : addU mask 1 with
      | ok capacity =>
        have : capacity ≠ 0 := by
          unfold addU at hc; split at hc <;> cases hc; omega
        simp only [Res.bind_ok, h.readE _ _ this]
      | err => rfl
      | panic => rfl
  | btreeMap => simp only [Data.mapEntries, h.readNat _ 8 (by decide), h.readAddress, h.btreeNode]
  | indexMap => rfl

theorem vecInfo (a lenOff dataOff : Nat) : Data.vecInfo T' a lenOff dataOff = Data.vecInfo T a lenOff dataOff := by
  simp only [Data.vecInfo, h.readLen, h.readAddress]

theorem readDisc (a : Nat) (ty : DiscTy) (d : Int) (hd : Data.readDisc T a ty = .ok d) :
    Data.readDisc T' a ty = .ok d := by
  cases ty with
  | implicit => cases hd
  | int s =>
    by_cases hs : s = 0
    · subst hs
      simp only [Data.readDisc] at hd
      rw [Res.bind_eq_ok] at hd
      obtain ⟨bs, _, hd⟩ := hd
      simp at hd
    · simpa only [Data.readDisc, h.readE _ _ hs] using hd
  | uint s =>
    by_cases hs : s = 0
    · subst hs
      simp only [Data.readDisc] at hd
      rw [Res.bind_eq_ok] at hd
      obtain ⟨bs, _, hd⟩ := hd
      simp at hd
    · simpa only [Data.readDisc, h.readE _ _ hs] using hd

end Strict

/-- Reading a value that is no empty text. -/
theorem readMem_strict {T' T : Target} (h : Strict T' T) {m : Mem} (hT : T.Reads m) : ∀ (f a : Nat) (t : TypeDef) (v : Value),
    readMem T f a t = .ok v → (∀ ty, v ≠ .scalar ty (quoted (T.lossy []))) → readMem T' f a t = .ok v := by
  intro f
  induction f with
  | zero => intro a t v hv; cases hv
  | succ f ih =>
    intro a t v hv hne
    obtain ⟨loc, l⟩ := t
    have h0 : ∀ b, T.readE b 0 = .ok [] := fun b => by unfold Target.readE; rw [hT b 0]; rfl
    have hmap : ∀ (g : Str → Str) (x : Value), v = x.mapType g → ∀ ty, x ≠ .scalar ty (quoted (T.lossy [])) := by
      rintro g x rfl ty rfl
      exact hne _ rfl
    simp only [readMem] at hv ⊢
    cases l with
    | bool => simpa only [readLayout, h.readE _ 1 (by decide)] using hv
    | char => simpa only [readLayout, h.readNat _ 4 (by decide)] using hv
    | function => exact hv
    | array e n => simpa only [readLayout, h.resolveAlias] using hv
    | pointer mt t =>
      simp only [readLayout, h.readAddress] at hv ⊢
      rw [Res.bind_eq_ok] at hv ⊢
      obtain ⟨p, hp, hv⟩ := hv
      rw [Res.bind_eq_ok] at hv
      obtain ⟨x, hx, hv⟩ := hv
      cases hv
      refine ⟨p, hp, ?_⟩
      rw [ih p t x hx (hmap _ x rfl)]; rfl
    | reference mt t =>
      simp only [readLayout, h.readAddress] at hv ⊢
      rw [Res.bind_eq_ok] at hv ⊢
      obtain ⟨p, hp, hv⟩ := hv
      rw [Res.bind_eq_ok] at hv
      obtain ⟨x, hx, hv⟩ := hv
      cases hv
      refine ⟨p, hp, ?_⟩
      rw [ih p t x hx (hmap _ x rfl)]; rfl
    | slice e dataOff lenOff => simpa only [readLayout, h.resolveAlias, h.readAddress, h.readNat _ 8 (by decide)] using hv
    | strSlice dataOff lenOff =>
      simp only [readLayout, h.readAddress, h.readNat _ 8 (by decide), h.lossy] at hv ⊢
      simp only [Res.bind_eq_ok] at hv ⊢
      obtain ⟨pa, h1, la, h2, data, h3, len, h4, bs, h5, h6⟩ := hv
      refine ⟨pa, h1, la, h2, data, h3, len, h4, bs, ?_, h6⟩
      by_cases hl : len = 0
      · subst hl
        rw [h0] at h5; cases h5
        cases h6
        exact absurd rfl (hne _)
      · rw [h.readE _ _ hl, h5]
    | uint s =>
      by_cases hs : s = 0
      · subst hs
        simp only [readLayout, h0, Res.bind_ok] at hv
        simp at hv
      · simpa only [readLayout, h.readE _ s hs] using hv
    | int s =>
      by_cases hs : s = 0
      · subst hs
        simp only [readLayout, h0, Res.bind_ok] at hv
        simp at hv
      · simpa only [readLayout, h.readE _ s hs] using hv
    | float s =>
      by_cases hs : s = 0
      · subst hs
        simp only [readLayout, h0, Res.bind_ok] at hv
        simp at hv
      · simpa only [readLayout, h.readE _ s hs, h.floatStr] using hv
    | never => exact hv
    | str => cases hv
    | tuple => cases hv
    | unit => exact hv
    | option n disc someOff someTy sz =>
      simp only [readLayout] at hv ⊢
      rw [Res.bind_eq_ok] at hv ⊢
      obtain ⟨da, hda, hv⟩ := hv
      refine ⟨da, hda, ?_⟩
      by_cases hs : disc.size = 0
      · rw [hs, h0] at hv; cases hv
      · rw [h.readE _ _ hs]
        rw [Res.bind_eq_ok] at hv ⊢
        obtain ⟨bs, hbs, hv⟩ := hv
        refine ⟨bs, hbs, ?_⟩
        cases bs with
        | nil => cases hv
        | cons b bs =>
          simp only at hv ⊢
          split
          · rename_i hb; rw [if_pos hb] at hv; exact hv
          · rename_i hb
            rw [if_neg hb] at hv
            rw [Res.bind_eq_ok] at hv ⊢
            obtain ⟨sa, hsa, hv⟩ := hv
            rw [Res.bind_eq_ok] at hv
            obtain ⟨x, hx, hv⟩ := hv
            cases hv
            refine ⟨sa, hsa, ?_⟩
            rw [ih sa _ x hx (hmap _ x rfl)]; rfl
    | vec lenOff dataOff capOff e => simpa only [readLayout, h.resolveAlias, h.vecInfo] using hv
    | string lenOff dataOff capOff e =>
      simp only [readLayout, h.readAddress, h.readLen, h.lossy] at hv ⊢
      simp only [Res.bind_eq_ok] at hv ⊢
      obtain ⟨la, h1, len, h2, pa, h3, data, h4, bs, h5, h6⟩ := hv
      refine ⟨la, h1, len, h2, pa, h3, data, h4, bs, ?_, h6⟩
      by_cases hl : len = 0
      · subst hl
        rw [h0] at h5; cases h5
        cases h6
        exact absurd rfl (hne _)
      · rw [h.readE _ _ hl, h5]
    | map v k w => simpa only [readLayout, h.mapEntries] using hv
    | smartPtr k t innerOff dataOff =>
      cases k <;> simp only [readLayout, h.readAddress] at hv ⊢
      case box =>
        rw [Res.bind_eq_ok] at hv ⊢
        obtain ⟨p, hp, hv⟩ := hv
        rw [Res.bind_eq_ok] at hv
        obtain ⟨x, hx, hv⟩ := hv
        cases hv
        exact ⟨p, hp, by rw [ih p _ x hx (hmap _ x rfl)]; rfl⟩
      case mutex =>
        rw [Res.bind_eq_ok] at hv ⊢
        obtain ⟨p, hp, hv⟩ := hv
        rw [Res.bind_eq_ok] at hv
        obtain ⟨x, hx, hv⟩ := hv
        cases hv
        exact ⟨p, hp, by rw [ih p _ x hx (hmap _ x rfl)]; rfl⟩
      case refCell =>
        rw [Res.bind_eq_ok] at hv ⊢
        obtain ⟨p, hp, hv⟩ := hv
        rw [Res.bind_eq_ok] at hv
        obtain ⟨x, hx, hv⟩ := hv
        cases hv
        exact ⟨p, hp, by rw [ih p _ x hx (hmap _ x rfl)]; rfl⟩
      case rc =>
        simp only [Res.bind_eq_ok] at hv ⊢
        obtain ⟨ia, h1, p, h2, da, h3, x, hx, hv⟩ := hv
        cases hv
        exact ⟨ia, h1, p, h2, da, h3, x, ih da _ x hx (hmap _ x rfl), rfl⟩
      case arc =>
        simp only [Res.bind_eq_ok] at hv ⊢
        obtain ⟨ia, h1, p, h2, da, h3, x, hx, hv⟩ := hv
        cases hv
        exact ⟨ia, h1, p, h2, da, h3, x, ih da _ x hx (hmap _ x rfl), rfl⟩
      all_goals cases hv
    | result => cases hv
    | struct => exact hv
    | enum n disc vs sz =>
      simp only [readLayout, readEnum] at hv ⊢
      rw [Res.bind_eq_ok] at hv ⊢
      obtain ⟨da, hda, hv⟩ := hv
      refine ⟨da, hda, ?_⟩
      rw [Res.bind_eq_ok] at hv ⊢
      obtain ⟨d, hd, hv⟩ := hv
      refine ⟨d, ?_, ?_⟩
      · cases hty : disc.ty with
        | implicit => simp only [hty] at hd ⊢; simpa only [h.readExact _ 4 (by decide)] using hd
        | int s => simp only [hty] at hd ⊢; exact h.readDisc _ _ _ hd
        | uint s => simp only [hty] at hd ⊢; exact h.readDisc _ _ _ hd
      · rw [Res.bind_eq_ok] at hv ⊢
        obtain ⟨w, hw, hv⟩ := hv
        rw [Res.bind_eq_ok] at hv
        obtain ⟨x, hx, hv⟩ := hv
        cases hv
        refine ⟨w, hw, ?_⟩
        rw [ih a _ x hx ?_]
        · rfl
        · rintro ty rfl
          exact hne ty rfl
    | cenum n disc vs sz =>
      simp only [readLayout, readCEnum] at hv ⊢
      rw [Res.bind_eq_ok] at hv ⊢
      obtain ⟨d, hd, hv⟩ := hv
      exact ⟨d, h.readDisc _ _ _ hd, hv⟩
    | «alias» n =>
      simp only [readLayout, h.resolveAt] at hv ⊢
      rw [Res.bind_eq_ok] at hv ⊢
      obtain ⟨t, ht, hv⟩ := hv
      exact ⟨t, ht, ih a t v hv hne⟩

theorem shownList_map (xs : List Value) : shownList xs = xs.map shown := by
  induction xs with
  | nil => rfl
  | cons x xs ih => simp [shownList, ih]

theorem shownFields_map (xs : List (Str × Value)) : shownFields xs = xs.map fun f => (f.1, shown f.2) := by
  induction xs with
  | nil => rfl
  | cons x xs ih => obtain ⟨k, v⟩ := x; simp [shownFields, ih]

theorem shownEntries_map (xs : List (Value × Value)) : shownEntries xs = xs.map fun e => (shown e.1, shown e.2) := by
  induction xs with
  | nil => rfl
  | cons x xs ih => obtain ⟨k, v⟩ := x; simp [shownEntries, ih]

/-- Showing a value in which no text is empty. -/
theorem expand_strict {T' T : Target} (h : Strict T' T) {m : Mem} (hT : T.Reads m) (stack : Nat) : ∀ (d : Nat) (v y : Value),
    expand T stack d v = .ok y → ¬ (shown y).Has (quoted (T.lossy [])) → expand T' stack d v = .ok y := by
  intro d
  induction d with
  | zero => intro v y hy _; exact hy
  | succ d ih =>
    intro v y hy hne
    have hlist : ∀ xs ys, expandList (expand T stack d) xs = .ok ys → (∀ z ∈ ys, ¬ (shown z).Has (quoted (T.lossy []))) →
        expandList (expand T' stack d) xs = .ok ys := by
      intro xs
      induction xs with
      | nil => intro ys h1 _; exact h1
      | cons x xs ihx =>
        intro ys h1 h2
        simp only [expandList, Res.bind_eq_ok] at h1 ⊢
        obtain ⟨z, hz, zs, hzs, h3⟩ := h1
        cases h3
        exact ⟨z, ih x z hz (h2 z (by simp)), zs, ihx zs hzs fun w hw => h2 w (by simp [hw]), rfl⟩
    cases v with
    | scalar t x => exact hy
    | pointer a t =>
      simp only [expand, Res.bind_eq_ok] at hy ⊢
      obtain ⟨w, hw, hy⟩ := hy
      refine ⟨w, readMem_strict h hT stack a t w hw ?_, ih w y hy hne⟩
      rintro ty rfl
      have : y = .scalar ty (quoted (T.lossy [])) := by
        cases d <;> (cases hy; rfl)
      subst this
      exact hne .leaf
    | array t xs =>
      simp only [expand, Res.bind_eq_ok] at hy ⊢
      obtain ⟨ys, h1, h2⟩ := hy
      cases h2
      refine ⟨ys, hlist xs ys h1 fun z hz hh => hne ?_, rfl⟩
      rw [shown, shownList_map]
      exact .seq (List.mem_map_of_mem hz) hh
    | tuple t xs =>
      simp only [expand, Res.bind_eq_ok] at hy ⊢
      obtain ⟨ys, h1, h2⟩ := hy
      cases h2
      refine ⟨ys, hlist xs ys h1 fun z hz hh => hne ?_, rfl⟩
      rw [shown, shownList_map]
      exact .tuple (List.mem_map_of_mem hz) hh
    | struct t fs =>
      simp only [expand, Res.bind_eq_ok] at hy ⊢
      obtain ⟨ys, h1, h2⟩ := hy
      cases h2
      refine ⟨ys, ?_, rfl⟩
      have hn : ∀ z ∈ ys, ¬ (shown z.2).Has (quoted (T.lossy [])) := by
        intro z hz hh
        refine hne ?_
        rw [shown, shownFields_map]
        exact .record (List.mem_map_of_mem (f := fun f : Str × Value => (f.1, shown f.2)) hz) hh
      clear hne
      induction fs generalizing ys with
      | nil => exact h1
      | cons x fs ihx =>
        obtain ⟨k, x⟩ := x
        simp only [expandFields, Res.bind_eq_ok] at h1 ⊢
        obtain ⟨z, hz, zs, hzs, h3⟩ := h1
        cases h3
        exact ⟨z, ih x z hz (hn (k, z) (by simp)), zs, ihx zs hzs (fun w hw => hn w (by simp [hw])), rfl⟩
    | map t es =>
      simp only [expand, Res.bind_eq_ok] at hy ⊢
      obtain ⟨ys, h1, h2⟩ := hy
      cases h2
      refine ⟨ys, ?_, rfl⟩
      have hn : ∀ z ∈ ys, ¬ (shown z.1).Has (quoted (T.lossy [])) ∧ ¬ (shown z.2).Has (quoted (T.lossy [])) := by
        intro z hz
        have hm := List.mem_map_of_mem (f := fun e : Value × Value => (shown e.1, shown e.2)) hz
        refine ⟨fun hh => hne ?_, fun hh => hne ?_⟩ <;> rw [shown, shownEntries_map]
        · exact .key hm hh
        · exact .value hm hh
      clear hne
      induction es generalizing ys with
      | nil => exact h1
      | cons x es ihx =>
        obtain ⟨k, x⟩ := x
        simp only [expandEntries, Res.bind_eq_ok] at h1 ⊢
        obtain ⟨kz, hkz, z, hz, zs, hzs, h3⟩ := h1
        cases h3
        exact ⟨kz, ih k kz hkz (hn (kz, z) (by simp)).1, z, ih x z hz (hn (kz, z) (by simp)).2, zs,
          ihx zs hzs (fun w hw => hn w (by simp [hw])), rfl⟩

end Rudy.Shown
