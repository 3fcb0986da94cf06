import Verif.Props.ImageCalls
import Verif.Props.Create
import Verif.Props.Kept
/-
C104: from the executable to a call with texts as arguments.
-/
set_option linter.unusedSimpArgs false
set_option linter.unusedSectionVars false
namespace Rudy.Image
open Rudy Rudy.Dwarf Rudy.Walker Rudy.Layout Rudy.Data Rudy.Resolve Rudy.Declared Rudy.Entries Rudy.Modules Rudy.TypeNames Rudy.FnIndex Rudy.Shown Rudy.Whole Rudy.Listing
open Rudy.TypeRes (shallow resolveType Ordinary)
open Rudy.Symbols (SymbolName Symbol CleanSegment looksLikeHash joinSep)
open Rudy.Eval (PassesAll Passes St)
open Rudy.Server (Arg)
open Rudy.Expr (Expr)

/-! ### Vocabulary -/

/-- Specification: memory has a text at the address `a`, in a value of the type of the entry `e`, of `k` bytes. A `&str` is the address of exactly the bytes of the text and their number; a `String` has the number once more, as its capacity. -/
inductive TextAt (typedef : Nat → Option Layout) (db : Parse.Db) (m : Mem) (a e : Nat) (text : Str) : Nat → Prop
  | str {dataOff lenOff p : Nat} : Is typedef db e (.str dataOff lenOff) → m.HoldsNat (a + lenOff) 8 (utf8 text).length → m.HoldsNat (a + dataOff) 8 p →
      m.HoldsBytes p (utf8 text) → TextAt typedef db m a e text 16
  | string {dataOff lenOff capOff t p : Nat} : Is typedef db e (.string lenOff dataOff capOff t) → m.HoldsNat (a + lenOff) 8 (utf8 text).length →
      m.HoldsNat (a + dataOff) 8 p → m.HoldsNat (a + capOff) 8 (utf8 text).length → m.HoldsBytes p (utf8 text) → TextAt typedef db m a e text 24

/-- Specification: a type of which a value can be made from a text: a `&str` or a `String`, with its parts beside each other, as compilers lay them out. A `&str` may have a megabyte. -/
inductive TakesText (typedef : Nat → Option Layout) (db : Parse.Db) (e : Nat) (text : Str) : Prop
  | str {dataOff lenOff : Nat} : Is typedef db e (.str dataOff lenOff) → (dataOff = 0 ∧ lenOff = 8) ∨ (dataOff = 8 ∧ lenOff = 0) → (utf8 text).length ≤ 1024 * 1024 → TakesText typedef db e text
  | string {dataOff lenOff capOff t : Nat} : Is typedef db e (.string lenOff dataOff capOff t) → lenOff + 8 ≤ 24 → dataOff + 8 ≤ 24 → capOff + 8 ≤ 24 →
      (lenOff + 8 ≤ dataOff ∨ dataOff + 8 ≤ lenOff) → (lenOff + 8 ≤ capOff ∨ capOff + 8 ≤ lenOff) → (capOff + 8 ≤ dataOff ∨ dataOff + 8 ≤ capOff) → TakesText typedef db e text

/-- Specification: arguments that the user types, `es`, for parameters of the types at `tys`: numbers, variables and parts of them (`vs`: the names of the variables, where they are, and the entries of their types; `m0` is the part of memory in use), and texts, for
parameters of types that take one. -/
inductive Offered (typedef : Nat → Option Layout) (db : Parse.Db) (m0 : Mem) (lossy : List UInt8 → Str) (floatStr : Nat → Nat → Str) : List (Str × Nat × Nat) → List Nat → List Expr → Prop
  | nil : Offered typedef db m0 lossy floatStr [] [] []
  | number {n ty : Nat} {vs : List (Str × Nat × Nat)} {tys : List Nat} {es : List Expr} : Offered typedef db m0 lossy floatStr vs tys es → Offered typedef db m0 lossy floatStr vs (ty :: tys) (.num n :: es)
  | place {v : Str} {a0 e0 a e k ty : Nat} {ex : Expr} {desc : Desc} {vs : List (Str × Nat × Nat)} {tys : List Nat} {es : List Expr} : Is typedef db e0 desc →
      Place typedef db m0 lossy floatStr v a0 e0 ex a e → (Ordinary typedef e → ex = .var v) → SizeIs typedef db e k →
      Offered typedef db m0 lossy floatStr vs tys es → Offered typedef db m0 lossy floatStr ((v, a0, e0) :: vs) (ty :: tys) (ex :: es)
  | text {e : Nat} {text : Str} {vs : List (Str × Nat × Nat)} {tys : List Nat} {es : List Expr} : TakesText typedef db e text → lossy (utf8 text) = text →
      Offered typedef db m0 lossy floatStr vs tys es → Offered typedef db m0 lossy floatStr vs (e :: tys) (.str text :: es)

/-- Specification: what the function is given for them, when it is called and the memory is `m`: the numbers, the addresses of the places, and for each text the address of a value of the type of the parameter that has the text. -/
inductive Received (typedef : Nat → Option Layout) (db : Parse.Db) (m0 : Mem) (lossy : List UInt8 → Str) (floatStr : Nat → Nat → Str) (m : Mem) : List (Str × Nat × Nat) → List Nat → List Expr → List Arg → Prop
  | nil : Received typedef db m0 lossy floatStr m [] [] [] []
  | number {n ty : Nat} {vs : List (Str × Nat × Nat)} {tys : List Nat} {es : List Expr} {as : List Arg} : Received typedef db m0 lossy floatStr m vs tys es as →
      Received typedef db m0 lossy floatStr m vs (ty :: tys) (.num n :: es) (⟨natStr n, .integer, none⟩ :: as)
  | place {v : Str} {a0 e0 a e k ty : Nat} {ex : Expr} {vs : List (Str × Nat × Nat)} {tys : List Nat} {es : List Expr} {as : List Arg} : Place typedef db m0 lossy floatStr v a0 e0 ex a e →
      SizeIs typedef db e k → Received typedef db m0 lossy floatStr m vs tys es as → Received typedef db m0 lossy floatStr m ((v, a0, e0) :: vs) (ty :: tys) (ex :: es) (⟨hexStr a, .pointer, some k⟩ :: as)
  | text {a e k : Nat} {text : Str} {vs : List (Str × Nat × Nat)} {tys : List Nat} {es : List Expr} {as : List Arg} : TextAt typedef db m a e text k →
      Received typedef db m0 lossy floatStr m vs tys es as → Received typedef db m0 lossy floatStr m vs (e :: tys) (.str text :: es) (⟨hexStr a, .pointer, some k⟩ :: as)

/-- Specification: the memory `m` has all that `m0` has, at addresses in use. -/
def Uses (m0 m : Mem) (owned : Nat → Prop) : Prop := ∀ z b, m0 z = some b → m z = some b ∧ owned z

/-- Specification: the memory needed to make values of the texts among the arguments. -/
def room : List Expr → Nat
  | [] => 0
  | .str text :: es => (utf8 text).length + 24 + room es
  | _ :: es => room es

/-- Specification: a debugger of a program that goes on being stopped in the frame `fr`, and can read and write its memory `mem` and call its `malloc`: `owned` says which addresses are in use, and any number of bytes less than `free` can still be had. -/
structure Heap {σ : Type} (L : Remote.Lldb σ) (mem : σ → Mem) (owned : σ → Nat → Prop) (free : σ → Nat) (fr : Remote.Frame) : Prop where
  live : ∀ s, Remote.Live L s
  selected : ∀ s, Remote.Selected L s fr
  reads : Remote.ReadsMemory L mem
  readsNothing : Remote.ReadsNothing L
  writes : Remote.WritesMemory L mem
  allocates : Remote.Allocates L mem owned
  gives : ∀ s n, n < free s → ∃ a x y t u s', L.evaluate s (Remote.mallocExpr n) = (.value true false a x y t u, s') ∧ free s ≤ free s' + n
  keeps : ∀ s a d s', L.write s a d = (.done d.length true, s') → (∀ z, owned s' z ↔ owned s z) ∧ free s' = free s

/-! ### Making texts -/

section
variable {σ : Type} {L : Remote.Lldb σ} {mem : σ → Mem} {owned : σ → Nat → Prop} {free : σ → Nat} {fr : Remote.Frame}

theorem Heap.backed (h : Heap L mem owned free fr) (b : Binary) : (b.info.world L).remote.Backed mem owned :=
  Remote.C77_remote_partial L (b.info.world L) h.reads h.readsNothing h.writes h.allocates (fun s a d s' hw => (h.keeps s a d s' hw).1) h.live

theorem Heap.alloc (h : Heap L mem owned free fr) (b : Binary) {s : σ} {n : Nat} (hn : n < free s) :
    ∃ a s', (b.info.world L).remote.alloc n s = (some a, s') ∧ free s ≤ free s' + n := by
  obtain ⟨a, x, y, t, u, s', he, hf⟩ := h.gives s n hn
  have ha := (h.allocates s n a x y t u s' he).1
  refine ⟨a, s', ?_, hf⟩
  have hh : Remote.handle L s (.allocate n) = (.allocated a, s') := by
    rw [Remote.handle_live L (h.live s)]
    simp [Remote.handleAllocate, he]
  show ((Remote.okOf (Remote.talk L (Remote.allocateMemory n) s)), (Remote.talk L (Remote.allocateMemory n) s).2) = _
  rw [Remote.allocateMemory, Remote.talk_ask _ _ _ _ (by rw [hh]; show a < 2 ^ 64; omega), hh]
  rfl

theorem Heap.write_free (h : Heap L mem owned free fr) (b : Binary) {a : Nat} {d : List UInt8} {s s' : σ} (hw : (b.info.world L).remote.write a d s = (some (), s')) : free s' = free s := by
  have hw : ((Remote.okOf (Remote.talk L (Remote.writeMemory a d) s)), (Remote.talk L (Remote.writeMemory a d) s).2) = (some (), s') := hw
  have hfit : Wire.answerFits (Remote.handle L s (.write a d)).1 := by
    rw [Remote.handle_live L (h.live s)]; simp only [Remote.handleWrite]; split <;> [(simp only; split) ; skip] <;> trivial
  rw [Remote.writeMemory, Remote.talk_ask _ _ _ _ hfit, Remote.handle_live L (h.live s)] at hw
  simp only [Remote.handleWrite] at hw
  cases hx : L.write s a d with
  | mk o s2 =>
    rw [hx] at hw
    cases o with
    | raised => simp [Remote.failure, Remote.talk, Remote.okOf] at hw
    | done k ok =>
      cases ok with
      | false => simp [Remote.failure, Remote.talk, Remote.okOf] at hw
      | true =>
        by_cases hk : k = d.length
        · simp only [hk, if_true, Remote.talk, Prod.mk.injEq] at hw
          subst hk
          rw [← hw.2]
          exact (h.keeps _ _ _ _ hx).2
        · simp [hk, Remote.failure, Remote.talk, Remote.okOf] at hw

end

section
variable {σ : Type} {R : Data.Remote σ} {mem : σ → Mem} {owned : σ → Nat → Prop} {free : σ → Nat}

theorem holdsNat_congr {m m' : Mem} {a n v : Nat} (h : m.HoldsNat a n v) (he : ∀ x, a ≤ x → x < a + n → m' x = m x) : m'.HoldsNat a n v :=
  ⟨h.1, fun i hi => by rw [he _ (by omega) (by omega)]; exact h.2 i hi⟩

/-- A `&str` is made in a new block, and stays as long as what is in use is left alone. -/
theorem str_made (hR : R.Backed mem owned) (hF : ∀ a d s s', R.write a d s = (some (), s') → free s' = free s) {text : Str} {dataOff lenOff : Nat} {s s1 : σ} {base : Nat}
    (ho : (dataOff = 0 ∧ lenOff = 8) ∨ (dataOff = 8 ∧ lenOff = 0)) (hlen : (utf8 text).length ≤ 1024 * 1024) (hlossy : R.lossy (utf8 text) = text)
    (ha : R.alloc ((utf8 text).length + 16) s = (some base, s1)) :
    ∃ s', createStr R text dataOff lenOff s = (.ok (base + (utf8 text).length), s') ∧ free s' = free s1 ∧ (∀ z, owned s z → mem s' z = mem s z) ∧ (∀ z, owned s z → owned s' z) ∧
      ∀ m' : Mem, (∀ z, owned s' z → m' z = mem s' z) → m'.HoldsNat (base + (utf8 text).length + lenOff) 8 (utf8 text).length ∧ m'.HoldsNat (base + (utf8 text).length + dataOff) 8 base ∧
        m'.HoldsBytes base (utf8 text) := by
  obtain ⟨s', hs'⟩ := C31_str_succeeds hR text dataOff lenOff s s1 base ho hlen ha hlossy
  obtain ⟨base', s1', h1, h2, h3, -, -, -, h4, h5, -⟩ := createStr_effect hR text dataOff lenOff s s' _ hs'
  rw [ha] at h1
  cases h1
  obtain ⟨b1, b2, b3, b4, b5⟩ := hR.alloc_block _ _ _ _ ha
  have hchain : ∃ s2 s3, R.write base (utf8 text) s1 = (some (), s2) ∧ R.write (base + (utf8 text).length + dataOff) (le8 base) s2 = (some (), s3) ∧
      R.write (base + (utf8 text).length + lenOff) (le8 (utf8 text).length) s3 = (some (), s') := by
    have h := hs'
    unfold createStr at h
    split at h
    · simp [Act.lift] at h
    · simp only [Act.bind_eq_ok, Act.lift_eq_ok, Remote.allocate_eq_ok, Remote.store_eq_ok, Remote.load_eq_ok] at h
      obtain ⟨total, _, ⟨h1, rfl⟩, base', s1', h2, _, s2, k3, fat, _, ⟨h4, rfl⟩, pa, _, ⟨h5, rfl⟩, _, s3, h6, la, _, ⟨h7, rfl⟩, _, s4, h8,
        pb, _, ⟨h9, rfl⟩, lb, _, ⟨h10, rfl⟩, p, _, ⟨h9', rfl⟩, l, _, ⟨h10', rfl⟩, h11⟩ := h
      obtain ⟨_, rfl⟩ := addU_eq_ok.1 h1
      rw [ha] at h2
      cases h2
      obtain ⟨_, rfl⟩ := addU_eq_ok.1 h4
      obtain ⟨_, rfl⟩ := addU_eq_ok.1 h5
      obtain ⟨_, rfl⟩ := addU_eq_ok.1 h7
      have : s4 = s' := by
        split at h11
        · simp [Act.lift] at h11
        · split at h11
          · simp [Act.lift] at h11
          · split at h11
            · simp [Act.lift] at h11
            · simp only [Act.bind_eq_ok, Act.lift_eq_ok, Remote.load_eq_ok] at h11
              obtain ⟨bs, _, ⟨-, rfl⟩, -, rfl⟩ := h11
              rfl
      subst this
      exact ⟨s2, s3, k3, h6, h8⟩
  obtain ⟨s2, s3, w1, w2, w3⟩ := hchain
  have hown : ∀ z, owned s' z ↔ owned s1 z := fun z => by
    rw [(hR.write_effect _ _ _ _ w3).2 z, (hR.write_effect _ _ _ _ w2).2 z, (hR.write_effect _ _ _ _ w1).2 z]
  refine ⟨s', hs', by rw [hF _ _ _ _ w3, hF _ _ _ _ w2, hF _ _ _ _ w1], ?_, fun z hz => (hown z).2 ((b5 z).2 (.inl hz)), ?_⟩
  · obtain ⟨base', s1', q1, q2, q3, q4⟩ := C31_str_stays_inside_partial hR text dataOff lenOff s s' _ (by omega) (by omega) hs'
    rw [ha] at q1
    cases q1
    intro z hz
    refine q4 z (Classical.byContradiction fun hc => b4 z (by omega) (by omega) hz)
  · intro m' hm'
    have hb : ∀ z, base ≤ z → z < base + ((utf8 text).length + 16) → m' z = mem s' z := fun z hz1 hz2 => hm' z ((hown z).2 ((b5 z).2 (.inr ⟨hz1, hz2⟩)))
    refine ⟨holdsNat_congr h5 fun z hz1 hz2 => hb z (by omega) (by omega), holdsNat_congr h4 fun z hz1 hz2 => hb z (by omega) (by omega), ?_⟩
    refine holds_congr (mem s') _ _ _ ?_ fun z hz1 hz2 => hb z (by omega) (by omega)
    rw [h3]
    refine holds_congr _ _ _ _ (put_holds (mem s1) base (utf8 text)) fun z hz1 hz2 => ?_
    rw [put_out _ _ _ _ (by omega), put_out _ _ _ _ (by omega)]

/-- A `String` is made in two new blocks. -/
theorem string_made (hR : R.Backed mem owned) (hF : ∀ a d s s', R.write a d s = (some (), s') → free s' = free s) {text : Str} {lenOff dataOff capOff : Nat} {s s1 : σ} {content : Nat}
    (hl : lenOff + 8 ≤ 24) (hd : dataOff + 8 ≤ 24) (hc : capOff + 8 ≤ 24)
    (h1 : lenOff + 8 ≤ dataOff ∨ dataOff + 8 ≤ lenOff) (h2 : lenOff + 8 ≤ capOff ∨ capOff + 8 ≤ lenOff) (h3 : capOff + 8 ≤ dataOff ∨ dataOff + 8 ≤ capOff)
    (ha : R.alloc (utf8 text).length s = (some content, s1)) (ha' : ∀ s2, free s2 = free s1 → ∃ addr s3, R.alloc 24 s2 = (some addr, s3) ∧ free s2 ≤ free s3 + 24) :
    ∃ addr s', createString R text lenOff dataOff capOff s = (.ok addr, s') ∧ free s1 ≤ free s' + 24 ∧ (∀ z, owned s z → mem s' z = mem s z) ∧ (∀ z, owned s z → owned s' z) ∧
      ∀ m' : Mem, (∀ z, owned s' z → m' z = mem s' z) → m'.HoldsNat (addr + lenOff) 8 (utf8 text).length ∧ m'.HoldsNat (addr + dataOff) 8 content ∧
        m'.HoldsNat (addr + capOff) 8 (utf8 text).length ∧ m'.HoldsBytes content (utf8 text) := by
  obtain ⟨b1, b2, b3, b4, b5⟩ := hR.alloc_block _ _ _ _ ha
  obtain ⟨s2, w1⟩ := hR.write_mapped content (utf8 text) s1 b2
  obtain ⟨e1, o1⟩ := hR.write_effect _ _ _ _ w1
  obtain ⟨addr, s3, a2, hf3⟩ := ha' s2 (hF _ _ _ _ w1)
  obtain ⟨c1, c2, c3, c4, c5⟩ := hR.alloc_block _ _ _ _ a2
  have hsub : ∀ {m : Mem} {o : Nat}, m.Mapped addr 24 → o + 8 ≤ 24 → m.Mapped (addr + o) 8 := by
    intro m o hm ho i hi
    have := hm (o + i) (by omega)
    rwa [← Nat.add_assoc] at this
  obtain ⟨s4, w2⟩ := hR.write_mapped addr (List.replicate 24 0) s3 (by simpa using c2)
  have e2 := hR.write_effect _ _ _ _ w2
  have m4 : (mem s4).Mapped addr 24 := by rw [e2.1]; exact put_mapped _ _ _ _ _ c2
  obtain ⟨s5, w3⟩ := hR.write_mapped (addr + lenOff) (le8 (utf8 text).length) s4 (by rw [le8_length]; exact hsub m4 hl)
  have e3 := hR.write_effect _ _ _ _ w3
  have m5 : (mem s5).Mapped addr 24 := by rw [e3.1]; exact put_mapped _ _ _ _ _ m4
  obtain ⟨s6, w4⟩ := hR.write_mapped (addr + dataOff) (le8 content) s5 (by rw [le8_length]; exact hsub m5 hd)
  have e4 := hR.write_effect _ _ _ _ w4
  have m6 : (mem s6).Mapped addr 24 := by rw [e4.1]; exact put_mapped _ _ _ _ _ m5
  obtain ⟨s7, w5⟩ := hR.write_mapped (addr + capOff) (le8 (utf8 text).length) s6 (by rw [le8_length]; exact hsub m6 hc)
  have e5 := hR.write_effect _ _ _ _ w5
  have hmade : createString R text lenOff dataOff capOff s = (.ok addr, s7) := by
    unfold createString
    rw [Act.bind_ok (Remote.allocate_eq_ok.2 ha), Act.bind_ok ((Remote.store_eq_ok (u := ())).2 w1), Act.bind_ok (Remote.allocate_eq_ok.2 a2), Act.bind_ok ((Remote.store_eq_ok (u := ())).2 w2),
      Act.bind_ok (Act.lift_eq_ok.2 ⟨addU_ok (by omega), rfl⟩), Act.bind_ok ((Remote.store_eq_ok (u := ())).2 w3), Act.bind_ok (Act.lift_eq_ok.2 ⟨addU_ok (by omega), rfl⟩), Act.bind_ok ((Remote.store_eq_ok (u := ())).2 w4),
      Act.bind_ok (Act.lift_eq_ok.2 ⟨addU_ok (by omega), rfl⟩), Act.bind_ok ((Remote.store_eq_ok (u := ())).2 w5)]
    rfl
  have hown : ∀ z, owned s7 z ↔ owned s3 z := fun z => by rw [e5.2 z, e4.2 z, e3.2 z, e2.2 z]
  have hout : ∀ z, z < addr ∨ addr + 24 ≤ z → mem s7 z = mem s2 z := by
    intro z hz
    rw [e5.1, e4.1, e3.1, e2.1, put_out _ _ _ _ (by rw [le8_length]; omega), put_out _ _ _ _ (by rw [le8_length]; omega), put_out _ _ _ _ (by rw [le8_length]; omega),
      put_out _ _ _ _ (by simp; omega)]
    exact c3 z hz
  refine ⟨addr, s7, hmade, ?_, ?_, ?_, ?_⟩
  · rw [hF _ _ _ _ w5, hF _ _ _ _ w4, hF _ _ _ _ w3, hF _ _ _ _ w2]
    rw [hF _ _ _ _ w1] at hf3
    exact hf3
  · intro z hz
    have hz1 : owned s1 z := (b5 z).2 (.inl hz)
    rw [hout z (Classical.byContradiction fun h => c4 z (by omega) (by omega) ((o1 z).2 hz1)), e1, put_out _ _ _ _ (Classical.byContradiction fun h => b4 z (by omega) (by omega) hz)]
    exact b3 z (Classical.byContradiction fun h => b4 z (by omega) (by omega) hz)
  · intro z hz
    exact (hown z).2 ((c5 z).2 (.inl ((o1 z).2 ((b5 z).2 (.inl hz)))))
  · intro m' hm'
    have hcap : (mem s7).HoldsBytes (addr + capOff) (le8 (utf8 text).length) := by rw [e5.1]; exact put_holds _ _ _
    have hptr : (mem s7).HoldsBytes (addr + dataOff) (le8 content) := by
      rw [e5.1]
      refine holds_congr (mem s6) _ _ _ (by rw [e4.1]; exact put_holds _ _ _) ?_
      intro x hx1 hx2
      rw [le8_length] at hx2
      exact put_out _ _ _ _ (by rw [le8_length]; omega)
    have hln : (mem s7).HoldsBytes (addr + lenOff) (le8 (utf8 text).length) := by
      rw [e5.1, e4.1]
      refine holds_congr (mem s5) _ _ _ (by rw [e3.1]; exact put_holds _ _ _) ?_
      intro x hx1 hx2
      rw [le8_length] at hx2
      rw [put_out _ _ _ _ (by rw [le8_length]; omega), put_out _ _ _ _ (by rw [le8_length]; omega)]
    have hdis : ∀ x, content ≤ x → x < content + (utf8 text).length → x < addr ∨ addr + 24 ≤ x := by
      intro x hx1 hx2
      exact Classical.byContradiction fun hh => c4 x (by omega) (by omega) ((o1 x).2 ((b5 x).2 (.inr ⟨hx1, hx2⟩)))
    have hcont : (mem s7).HoldsBytes content (utf8 text) := by
      refine holds_congr (mem s2) _ _ _ (by rw [e1]; exact put_holds _ _ _) ?_
      intro x hx1 hx2
      exact hout x (hdis x hx1 hx2)
    have hb : ∀ z, addr ≤ z → z < addr + 24 → m' z = mem s7 z := fun z hz1 hz2 => hm' z ((hown z).2 ((c5 z).2 (.inr ⟨hz1, hz2⟩)))
    have hb' : ∀ z, content ≤ z → z < content + (utf8 text).length → m' z = mem s7 z := fun z hz1 hz2 => hm' z ((hown z).2 ((c5 z).2 (.inl ((o1 z).2 ((b5 z).2 (.inr ⟨hz1, hz2⟩))))))
    have h64 : (utf8 text).length < 2 ^ 64 := by simp only [u64Max1] at b1; omega
    have hc64 : content < 2 ^ 64 := by simp only [u64Max1] at b1; omega
    exact ⟨holdsNat_congr (holds_le8 _ _ _ h64 hln) fun z hz1 hz2 => hb z (by omega) (by omega), holdsNat_congr (holds_le8 _ _ _ hc64 hptr) fun z hz1 hz2 => hb z (by omega) (by omega),
      holdsNat_congr (holds_le8 _ _ _ h64 hcap) fun z hz1 hz2 => hb z (by omega) (by omega), holds_congr _ _ _ _ hcont hb'⟩

end

/-- The code makes a value of the type of the parameter. -/
theorem text_made {typedef : Nat → Option Layout} {db : Parse.Db} {lossy : List UInt8 → Str} (hw : TypeRes.WellFormed db) (hdec : TypeRes.Decodes db) {e : Nat} {text : Str} (h : TakesText typedef db e text)
    (hl : lossy (utf8 text) = text) :
    ∃ N, ∀ (σ : Type) (L : Remote.Lldb σ) (mem : σ → Mem) (owned : σ → Nat → Prop) (free : σ → Nat) (fr : Remote.Frame) (b : Binary) (depth : Nat) (td : TypeDef), N ≤ depth →
      Heap L mem owned free fr → b.lossy = lossy → resolveType typedef db depth e = .ok td →
      ∀ (s : σ) (pc : Option Nat) (cs : List Server.Event), (utf8 text).length + 24 < free s →
      ∃ a k s', Passes (b.info.world L) (.str text) (some td) ⟨pc, cs, s⟩ ⟨hexStr a, .pointer, some k⟩ ⟨pc, cs, s'⟩ ∧ free s ≤ free s' + ((utf8 text).length + 24) ∧
        (∀ z, owned s z → mem s' z = mem s z) ∧ (∀ z, owned s z → owned s' z) ∧ ∀ m' : Mem, (∀ z, owned s' z → m' z = mem s' z) → TextAt typedef db m' a e text k := by
  cases h with
  | @str dataOff lenOff hI ho hlen =>
    obtain ⟨N, hN⟩ := types_at hw hdec hI
    obtain ⟨M, hM⟩ := place_size hw hdec (SizeIs.one hI (s := 16) rfl)
    refine ⟨max N M, fun σ L mem owned free fr b depth td hd hH hb hres s pc cs hf => ?_⟩
    have hsz := hM depth (by omega) td (.inl hres)
    rw [(hN depth (by omega)).2.1] at hres
    cases hres
    obtain ⟨base, s1, ha, hf1⟩ := hH.alloc b (s := s) (n := (utf8 text).length + 16) (by omega)
    obtain ⟨s', h1, h2, h3, h4, h5⟩ := str_made (hH.backed b) (fun a d s s' => hH.write_free b) ho hlen (by show b.lossy _ = _; rw [hb]; exact hl) ha
    refine ⟨_, 16, s', .text (s := ⟨pc, cs, s⟩) (p := s') h1 hsz, by omega, h3, h4, fun m' hm' => ?_⟩
    obtain ⟨q1, q2, q3⟩ := h5 m' hm'
    exact .str hI q1 q2 q3
  | @string dataOff lenOff capOff t hI o1 o2 o3 o4 o5 o6 =>
    obtain ⟨N, hN⟩ := types_at hw hdec hI
    obtain ⟨M, hM⟩ := place_size hw hdec (SizeIs.one hI (s := 24) rfl)
    refine ⟨max N M, fun σ L mem owned free fr b depth td hd hH hb hres s pc cs hf => ?_⟩
    have hsz := hM depth (by omega) td (.inl hres)
    rw [(hN depth (by omega)).2.1] at hres
    cases hres
    obtain ⟨content, s1, ha, hf1⟩ := hH.alloc b (s := s) (n := (utf8 text).length) (by omega)
    obtain ⟨addr, s', h1, h2, h3, h4, h5⟩ := string_made (hH.backed b) (fun a d s s' => hH.write_free b) o1 o2 o3 o4 o5 o6 ha (fun s2 hs2 => hH.alloc b (by omega))
    refine ⟨addr, 24, s', .text (s := ⟨pc, cs, s⟩) (p := s') h1 hsz, by omega, h3, h4, fun m' hm' => ?_⟩
    obtain ⟨q1, q2, q3, q4⟩ := h5 m' hm'
    exact .string hI q1 q2 q3 q4

theorem Offered.described {typedef : Nat → Option Layout} {db : Parse.Db} {m0 : Mem} {lossy : List UInt8 → Str} {floatStr : Nat → Nat → Str} {vs : List (Str × Nat × Nat)}
    {tys : List Nat} {es : List Expr} (h : Offered typedef db m0 lossy floatStr vs tys es) : ∀ v ∈ vs, ∃ desc, Is typedef db v.2.2 desc := by
  induction h with
  | nil => intro v hv; cases hv
  | number _ ih => exact ih
  | text _ _ _ ih => exact ih
  | place h0 _ _ _ _ ih =>
    intro v hv
    rcases List.mem_cons.1 hv with rfl | hv
    · exact ⟨_, h0⟩
    · exact ih v hv

theorem Offered.length {typedef : Nat → Option Layout} {db : Parse.Db} {m0 : Mem} {lossy : List UInt8 → Str} {floatStr : Nat → Nat → Str} {vs : List (Str × Nat × Nat)}
    {tys : List Nat} {es : List Expr} (h : Offered typedef db m0 lossy floatStr vs tys es) : es.length = tys.length := by
  induction h with
  | nil => rfl
  | number _ ih => simp [ih]
  | text _ _ _ ih => simp [ih]
  | place _ _ _ _ _ ih => simp [ih]

/-- What is passed for all of the arguments. -/
theorem offered_all {typedef : Nat → Option Layout} {db : Parse.Db} {m0 : Mem} {lossy : List UInt8 → Str} {floatStr : Nat → Nat → Str}
    (hw : TypeRes.WellFormed db) (hdec : TypeRes.Decodes db) {vs : List (Str × Nat × Nat)} {tys : List Nat} {es : List Expr} (h : Offered typedef db m0 lossy floatStr vs tys es) :
    ∃ N, ∀ (σ : Type) (L : Remote.Lldb σ) (mem : σ → Mem) (owned : σ → Nat → Prop) (free : σ → Nat) (fr : Remote.Frame) (b : Binary) (depth : Nat), N ≤ depth → N ≤ b.stack →
      Heap L mem owned free fr → TypesFrom b typedef db lossy floatStr depth → (∀ s, ∀ v ∈ vs, RootAt (b.info.world L) s fr.pc typedef db depth v.1 v.2.1 v.2.2) →
      ∀ ts, List.Forall₂ (fun ty td => resolveType typedef db depth ty = .ok td) tys ts → ∀ (s : σ) (pc0 : Option Nat) (cs : List Server.Event), pc0 = none ∨ pc0 = some fr.pc →
      Uses m0 (mem s) (owned s) → room es < free s →
      ∃ pc' as s', (pc' = none ∨ pc' = some fr.pc) ∧ PassesAll (b.info.world L) es ts ⟨pc0, cs, s⟩ as ⟨pc', cs, s'⟩ ∧ (∀ z, owned s z → mem s' z = mem s z) ∧ (∀ z, owned s z → owned s' z) ∧
        ∀ m', (∀ z, owned s' z → m' z = mem s' z) → Received typedef db m0 lossy floatStr m' vs tys es as := by
  induction h with
  | nil =>
    exact ⟨0, fun σ L mem owned free fr b depth _ _ _ _ _ ts hts s pc0 cs hpc _ _ => by cases hts; exact ⟨pc0, [], s, hpc, .nil, fun _ _ => rfl, fun _ h => h, fun _ _ => .nil⟩⟩
  | @number n ty vs tys es h ih =>
    obtain ⟨N, hN⟩ := ih
    refine ⟨N, fun σ L mem owned free fr b depth hd hst hH hT hr ts hts s pc0 cs hpc hu hroom => ?_⟩
    cases hts with
    | cons ht hts =>
      obtain ⟨pc', as, s', h1, h2, h3, h4, h5⟩ := hN σ L mem owned free fr b depth hd hst hH hT hr _ hts s pc0 cs hpc hu hroom
      refine ⟨pc', _, s', h1, .cons (s1 := ⟨pc0, cs, s⟩) .number h2, h3, h4, fun m' hm' => ?_⟩
      have := Received.number (n := n) (ty := ty) (h5 m' hm')
      rwa [natStr_toString] at this
  | @place v a0 e0 a e k ty ex desc vs tys es h0 hp ho hsz h ih =>
    obtain ⟨N, hN⟩ := ih
    obtain ⟨M, hM⟩ := place_found_part hw hdec hp
    obtain ⟨K, hK⟩ := place_size hw hdec hsz
    refine ⟨max N (max M K), fun σ L mem owned free fr b depth hd hst hH hT hr ts hts s pc0 cs hpc hu hroom => ?_⟩
    cases hts with
    | cons ht hts =>
      have hroom' : room es < free s := by
        revert hroom
        cases hp <;> exact id
      obtain ⟨td, htd, href⟩ := hM σ (b.info.world L) s fr.pc depth pc0 cs (mem s) hpc (by omega) (by show _ ≤ b.stack; omega) (hr s _ (List.mem_cons_self ..)) (fun z c hz => (hu z c hz).1)
        (strict_of L b hH.reads (hH.live s) hT)
      obtain ⟨pc', as, s', h1, h2, h3, h4, h5⟩ := hN σ L mem owned free fr b depth (by omega) (by omega) hH hT (fun s v hv => hr s v (List.mem_cons_of_mem _ hv)) _ hts s (some fr.pc) cs (.inr rfl) hu hroom'
      refine ⟨pc', _, s', h1, .cons (.place ?_ href (hK depth (by omega) td ?_)) h2, h3, h4, fun m' hm' => .place hp hsz (h5 m' hm')⟩
      · cases hp <;> trivial
      · rcases htd with ⟨htd, -⟩ | htd
        · exact .inl htd
        · by_cases hoe : Ordinary typedef e
          · have := ho hoe
            subst this
            cases hp
            obtain ⟨hf, td', htd', hv⟩ := hr s _ (List.mem_cons_self ..)
            refine .inl ?_
            have : Eval.toRef (b.info.world L) (.var v) ⟨pc0, cs, s⟩ = (.ok (a0, td'), ⟨some fr.pc, cs, s⟩) := by
              rcases hpc with rfl | rfl <;> simp only [Eval.toRef, Eval.variableRef, Eval.Ev.bind, Eval.getPc, hf, Eval.Ev.reading, hv, Eval.Ev.lift]
            rw [this] at href
            cases href
            exact htd'
          · exact .inr ⟨hoe, htd⟩
  | @text e text vs tys es ht hl h ih =>
    obtain ⟨N, hN⟩ := ih
    obtain ⟨M, hM⟩ := text_made hw hdec ht hl
    refine ⟨max N M, fun σ L mem owned free fr b depth hd hst hH hT hr ts hts s pc0 cs hpc hu hroom => ?_⟩
    cases hts with
    | @cons _ td _ ts htd hts =>
      simp only [room] at hroom
      obtain ⟨a, k, s1, h1, h2, h3, h4, h5⟩ := hM σ L mem owned free fr b depth td (by omega) hH hT.lossy htd s pc0 cs (by omega)
      have hu' : Uses m0 (mem s1) (owned s1) := fun z c hz => ⟨by rw [h3 z (hu z c hz).2]; exact (hu z c hz).1, h4 z (hu z c hz).2⟩
      obtain ⟨pc', as, s', q1, q2, q3, q4, q5⟩ := hN σ L mem owned free fr b depth (by omega) (by omega) hH hT hr _ hts s1 pc0 cs hpc hu' (by omega)
      refine ⟨pc', _, s', q1, .cons h1 q2, fun z hz => by rw [q3 z (h4 z hz), h3 z hz], fun z hz => q4 z (h4 z hz), fun m' hm' => .text (h5 m' fun z hz => ?_) (q5 m' hm')⟩
      rw [hm' z (q4 z hz), q3 z hz]

theorem forall₂_drop {α β : Type} {R : α → β → Prop} {l : List α} {l' : List β} (n : Nat) (h : List.Forall₂ R l l') : List.Forall₂ R (l.drop n) (l'.drop n) := by
  induction h generalizing n with
  | nil => simp
  | cons h1 h2 ih =>
    cases n with
    | zero => exact .cons h1 h2
    | succ n => exact ih n

theorem ArgTypes.unique {ks : List (Tree Die)} {tys tys' : List Nat} (h : ArgTypes ks tys) (h' : ArgTypes ks tys') : tys = tys' := by
  induction h generalizing tys' with
  | nil => cases h'; rfl
  | arg h1 h2 _ ih =>
    cases h' with
    | arg _ h3 h4 => rw [h2] at h3; cases h3; rw [ih h4]
    | other h3 _ => exact absurd ⟨h1, _, h2⟩ h3
  | other h1 _ ih =>
    cases h' with
    | arg h3 h4 _ => exact absurd ⟨h3, _, h4⟩ h1
    | other _ h4 => exact ih h4

theorem ArgTypes.arity {ks : List (Tree Die)} {tys : List Nat} (h : ArgTypes ks tys) : Arity ks tys.length := by
  induction h with
  | nil => exact .nil
  | arg h1 h2 _ ih => exact .arg ⟨h1, h2⟩ ih
  | other h1 _ ih => exact .other (fun ty h => h1 ⟨h.1, ty, h.2⟩) ih

/-! ### C104 -/

/-- Specification: what happens when the user types a call of `ex` - with the arguments `es`, for parameters of the types at `tys` - while the program is stopped at the start of a line of the function `t`, with at least `m0` in the memory in use, and with room for the
texts: values are made of the texts, without touching what is in use, and in the state `s1` that this leaves, LLDB is given the text `call as` to run, with arguments `as` as they should be. If it gives the value `a`, and the memory then is `m`, the user is shown `r`.
`others` are other variables that are used. -/
def TextCallPrints (w : Libs) (x : Executable) (us : List UnitOf) (files : UnitFiles) (t : Tree Die) (m0 m : Mem) (others vs : List (Str × Nat × Nat)) (tys : List Nat) (es : List Expr) (ex : Expr) (call : List Arg → Str) (a : Nat) (r : Listing.Printed) : Prop :=
  ∃ N, ∀ stack depth, N ≤ stack → N ≤ depth → ∃ b, binary w stack depth x = .ok b ∧
    ∀ (σ : Type) (L : Remote.Lldb σ) (mem : σ → Mem) (owned : σ → Nat → Prop) (free : σ → Nat) (fr : Remote.Frame) (other : Wire.Json → Str) (s : σ) (text : Str),
    Heap L mem owned free fr → Uses m0 (mem s) (owned s) → room es < free s → Whole.Typed text ex →
    ∀ rel line, StoppedIn w x us t fr.pc rel → LineAt files rel line → (∀ v ∈ others ++ vs, Local x files t fr v.1 v.2.1 v.2.2) →
    ∃ as s1, Received (typedef w.lib x) (fileDb x.units) m0 w.lossy w.floatStr (mem s1) vs tys es as ∧ (∀ z, owned s z → mem s1 z = mem s z) ∧
      ∀ s' load addr ty summary, mem s' = m → L.evaluate s1 (call as) = (.value true false a load addr ty summary, s') →
      rd L other b.program.backend s text = some (r, s')

variable {w : Libs} {x : Executable} {us : List UnitOf} {u : UnitOf} {files : UnitFiles} {t : Tree Die} {m0 m : Mem} {ms : List Str} {f : Str}

/-- C104, from the executable to a call with texts: the user types `rd print a::b::f(x.y, "text", 1)`. For every text, a value of the type that the entry of the function declares for the parameter - a `&str` or a `String` - is made in memory got from `malloc`, with exactly
this text, and the function is called once, with the address of it; at that moment, all the texts are there and nothing that was in use before has changed. What is printed is the result, as in C100. -/
theorem C104_function_partial (hs : Stops w x us u files t) (hm : ∀ m ∈ ms, CleanSegment m) (hf : CleanSegment f) (hh : looksLikeHash f = false)
    (hty : ∀ n a t, Fitting w x ms f n a → t ∈ nodes us → EntryOf w x us n t.die → ∀ ty, InSignature t ty → ∃ text, TypeCalled w x ty text)
    {addr : Nat} {g : Tree Die} (hg : Callee w x us ms f addr g) (h0 : addr ≠ 0) {vs : List (Str × Nat × Nat)} {es : List Expr} {tys : List Nat}
    (ho : Offered (typedef w.lib x) (fileDb x.units) m0 w.lossy w.floatStr vs tys es) (hk : ArgTypes g.kids tys)
    {e k : Nat} (hret : g.die.attr .type = some (.ref e)) (hsz : SizeIs (typedef w.lib x) (fileDb x.units) e k) (hk64 : k < 2 ^ 64)
    {n a : Nat} {val : RVal} {name : Str} (hn : n ≤ 4) (hv : Holds (typedef w.lib x) (fileDb x.units) m w.lossy w.floatStr n a e val) (hne : ¬ val.Has (emptyText w.lossy))
    (hcl : Called (typedef w.lib x) (fileDb x.units) w.lib.render e name) (ha0 : a ≠ 0) (ha : a < 2 ^ 64 - 1) :
    TextCallPrints w x us files t m0 m [] vs tys es (.call (joinSep (ms ++ [f])) es) (fun as => Calls.functionExpr addr as (some k)) a
      (.text (page [chars! "type: " ++ name, chars! "value: " ++ val.text])) := by
  have hw := hs.wellFormed
  have hdec : TypeRes.Decodes (fileDb x.units) := C95_decodes _
  obtain ⟨N1, h1⟩ := variables_found hs vs ho.described
  obtain ⟨N3, h3⟩ := callee_typed hs.compiled hm hf hh hty hg hk.arity
  obtain ⟨N4, h4⟩ := C89_function_any_partial hw hdec hn hv hne hcl
  obtain ⟨N5, h5⟩ := place_size hw hdec hsz
  obtain ⟨N6, h6⟩ := offered_all hw hdec ho
  refine ⟨max N1 (max (max N3 (max N4 N5)) N6), fun stack depth hst hd => ?_⟩
  obtain ⟨b, hb, hbs, hT, hroot⟩ := h1 stack depth (by omega)
  obtain ⟨b', found, rest, hb', hdisc, haddr, hlen, hret', -, tys', htys', hres⟩ := h3 stack depth (by omega)
  rw [hb] at hb'
  cases hb'
  rw [← hk.unique htys'] at hres
  obtain ⟨td, hfr, htd⟩ := hret' e hret
  refine ⟨b, hb, fun σ L mem owned free fr other s text hH hu hroom htx rel line hstop hline hloc => ?_⟩
  have hR := fun s => hroot σ L s fr (hH.live s) (hH.selected s) rel line hstop hline hloc
  obtain ⟨pc, as, s1, -, hpass, hkeep, -, hrec⟩ := h6 σ L mem owned free fr b depth (by omega) (by omega) hH hT hR _ hres s none [] (.inl rfl) hu hroom
  refine ⟨as, s1, hrec _ fun _ _ => rfl, hkeep, fun s' load addr' ty summary hm' hrun => ?_⟩
  exact h4 σ L mem other b s s' ⟨pc, [], s1⟩ text (joinSep (ms ++ [f])) es as depth k found rest td load addr' ty summary (by omega) (by omega) hH.reads (hH.live s1) (hH.live s') hm'
    hT htx hdisc (by rw [haddr]; exact h0) (by rw [hlen, ho.length]) hpass hfr htd (h5 depth (by omega) td (.inl htd)) hk64 (by rw [haddr]; exact hrun) ha0 ha

/-- C104, the same for a method: the user types `rd print v.m("text", 1)`. The values are made for the parameters after the receiver; `self` is the address of `v`. -/
theorem C104_method_partial (hs : Stops w x us u files t) {S : Str} {own : Desc} {eo : Nat} {md : Tree Die} {path : List Str} {homes : List (Tree Die)} (h : HomeOf w x us S own eo md path homes)
    {direct traits : List (Bool × Str)} (hf' : FunctionsOf w x S own md homes direct traits) {name : Str} {g : Tree Die} (hg : MethodOf w x S own md homes name g)
    {addr : Nat} (hcode : CodeAt w x g.die addr) (h0 : addr ≠ 0) {v : Str} {obj : Nat} {vs : List (Str × Nat × Nat)} {es : List Expr} {self : Nat} {tys : List Nat}
    (ho : Offered (typedef w.lib x) (fileDb x.units) m0 w.lossy w.floatStr vs tys es) (hk : ArgTypes g.kids (self :: tys))
    {e k : Nat} (hret : g.die.attr .type = some (.ref e)) (hsz : SizeIs (typedef w.lib x) (fileDb x.units) e k) (hk64 : k < 2 ^ 64)
    {n a : Nat} {val : RVal} {rname : Str} (hn : n ≤ 4) (hv : Holds (typedef w.lib x) (fileDb x.units) m w.lossy w.floatStr n a e val) (hne : ¬ val.Has (emptyText w.lossy))
    (hcl : Called (typedef w.lib x) (fileDb x.units) w.lib.render e rname) (ha0 : a ≠ 0) (ha : a < 2 ^ 64 - 1) :
    TextCallPrints w x us files t m0 m [(v, obj, eo)] vs tys es (.method (.var v) name es) (fun as => Calls.methodExpr addr obj as (some k)) a
      (.text (page [chars! "type: " ++ rname, chars! "value: " ++ val.text])) := by
  have hw := hs.wellFormed
  have hdec : TypeRes.Decodes (fileDb x.units) := C95_decodes _
  obtain ⟨N1, h1⟩ := variables_found hs ([(v, obj, eo)] ++ vs) (by
    intro v' hv'
    rcases List.mem_cons.1 hv' with rfl | hv'
    · exact ⟨_, h.described⟩
    · exact ho.described v' hv')
  obtain ⟨N3, h3⟩ := object_found hs h hf'
  obtain ⟨N4, h4⟩ := C89_method_any_partial hw hdec hn hv hne hcl
  obtain ⟨N5, h5⟩ := place_size hw hdec hsz
  obtain ⟨N6, h6⟩ := offered_all hw hdec ho
  refine ⟨max N1 (max (max N3 (max N4 N5)) N6), fun stack depth hst hd => ?_⟩
  obtain ⟨b, hb, hbs, hT, hroot⟩ := h1 stack depth (by omega)
  obtain ⟨b', hb', tdo, all, hms, hsyn, hmade, hobj⟩ := h3 stack depth (by omega)
  rw [hb] at hb'
  cases hb'
  obtain ⟨pre, post, hfns, hrec, hname, hfirst⟩ := hg
  rw [hfns] at hmade
  obtain ⟨before, found, after, rfl, ⟨m1, m2, m3, -, m4, -, m6⟩, hbefore⟩ := made_split hmade
  rw [List.filter_append, List.filter_cons, if_pos (m2.2 hrec)] at hms
  obtain ⟨td, hfr, htd⟩ := m4 e hret
  obtain ⟨self', tys', htys', hres⟩ := m6 hrec
  cases hk.unique htys'
  refine ⟨b, hb, fun σ L mem owned free fr other s text hH hu hroom htx rel line hstop hline hloc => ?_⟩
  have hR := fun s => hroot σ L s fr (hH.live s) (hH.selected s) rel line hstop hline hloc
  obtain ⟨pc2, as, s1, -, hpass, hkeep, -, hrec'⟩ := h6 σ L mem owned free fr b depth (by omega) (by omega) hH hT (fun s v hv => hR s v (List.mem_append_right _ hv)) _ hres s (some fr.pc) [] (.inr rfl) hu hroom
  refine ⟨as, s1, hrec' _ fun _ _ => rfl, hkeep, fun s' load addr' ty summary hm' hrun => ?_⟩
  exact h4 σ L mem other b s s' _ ⟨pc2, [], s1⟩ text name (.var v) es as depth obj tdo k (before.filter (·.selfType.isSome)) (after.filter (·.selfType.isSome)) found td load addr' ty summary
    (by omega) (by omega) hH.reads (hH.live s1) (hH.live s') hm' hT htx (hobj σ L s fr.pc v obj (hR s _ (List.mem_append_left _ (List.mem_cons_self ..)))) (by rw [hsyn]; exact List.not_mem_nil) hms (by
      intro d hd
      obtain ⟨hd1, hd2⟩ := List.mem_filter.1 hd
      obtain ⟨k', hk', q1, q2, -⟩ := forall₂_right hbefore d hd1
      rw [q1]
      exact hfirst k' hk' (q2.1 hd2)) (by rw [m1, hname]) (by rw [m3 addr hcode]; exact h0) hpass hfr htd (h5 depth (by omega) td (.inl htd)) hk64 (by rw [m3 addr hcode]; exact hrun) ha0 ha

/-- Specification: a type of which no value can be made from a text. -/
def NoText : Desc → Prop
  | .str _ _ | .string _ _ _ _ => False
  | _ => True

theorem noText_err {σ : Type} {R : Data.Remote σ} {typedef : Nat → Option Layout} {db : Parse.Db} {d e : Nat} {desc : Desc} (hI : Is typedef db e desc) (h : NoText desc) (text : Str) (s : σ) :
    createTyped R text (full typedef db d e desc) s = (.err, s) := by
  have hI := hI.1
  cases desc with
  | plain l => obtain ⟨-, hp⟩ := hI; cases l <;> simp [Shown.Plain] at hp <;> rfl
  | str => exact h.elim
  | string => exact h.elim
  | _ => rfl

theorem convertArgs_refused {σ : Type} {W : Eval.World σ} {es es' : List Expr} {e : Expr} {ts : List TypeDef} {s s1 s2 : St σ} {as : List Arg} (h : PassesAll W es ts s as s1)
    (he : Eval.convertArg W e (ts.drop es.length).head? (Eval.toRef W e) (Eval.evaluate W e) s1 = (.err, s2)) : Eval.convertArgs W (es ++ e :: es') ts s = (.err, s2) := by
  induction h with
  | nil => simp only [List.nil_append, Eval.convertArgs, Eval.Ev.bind]; simp only [List.length_nil, List.drop_zero] at he; rw [he]
  | cons h1 _ ih =>
    simp only [List.cons_append, Eval.convertArgs, Eval.Ev.bind]
    rw [(Eval.convertArg_ok ..).2 h1]
    simp only
    rw [ih (by simpa [List.drop_tail] using he)]

/-- C104: a text for a parameter whose type is neither `&str` nor `String` is an error, and nothing is run or written. -/
theorem C104_refused (hs : Stops w x us u files t) (hm : ∀ m ∈ ms, CleanSegment m) (hf : CleanSegment f) (hh : looksLikeHash f = false)
    (hty : ∀ n a t, Fitting w x ms f n a → t ∈ nodes us → EntryOf w x us n t.die → ∀ ty, InSignature t ty → ∃ text, TypeCalled w x ty text)
    {addr : Nat} {g : Tree Die} (hg : Callee w x us ms f addr g) {vs : List (Str × Nat × Nat)} {es : List Expr} {as1 : List Arg} {tys1 tys2 : List Nat}
    (hp : Passed (typedef w.lib x) (fileDb x.units) m0 w.lossy w.floatStr vs es as1) {ty : Nat} {desc : Desc} (hI : Is (typedef w.lib x) (fileDb x.units) ty desc) (hno : NoText desc)
    (hk : ArgTypes g.kids (tys1 ++ ty :: tys2)) (hl1 : tys1.length = es.length) (lit : Str) (es2 : List Expr) :
    ∃ N, ∀ stack depth, N ≤ stack → N ≤ depth → ∃ b, binary w stack depth x = .ok b ∧
      ∀ (σ : Type) (L : Remote.Lldb σ) (mem : σ → Mem) (other : Wire.Json → Str) (s : σ) (fr : Remote.Frame) (text : Str), Remote.ReadsMemory L mem → Remote.Live L s → Remote.Selected L s fr → mem s = m0 →
      Whole.Typed text (.call (joinSep (ms ++ [f])) (es ++ .str lit :: es2)) →
      ∀ rel line, StoppedIn w x us t fr.pc rel → LineAt files rel line → (∀ v ∈ vs, Local x files t fr v.1 v.2.1 v.2.2) →
      rd L other b.program.backend s text = some (.error, s) := by
  have hw := hs.wellFormed
  have hdec : TypeRes.Decodes (fileDb x.units) := C95_decodes _
  obtain ⟨N1, h1⟩ := variables_found hs vs (fun v hv => hp.described v hv)
  obtain ⟨N2, h2⟩ := passed_all hw hdec hp
  obtain ⟨N3, h3⟩ := callee_typed hs.compiled hm hf hh hty hg hk.arity
  obtain ⟨N4, h4⟩ := types_at hw hdec hI
  refine ⟨max (max N1 N2) (max N3 N4), fun stack depth hst hd => ?_⟩
  obtain ⟨b, hb, hbs, hT, hroot⟩ := h1 stack depth (by omega)
  obtain ⟨b', found, rest, hb', hdisc, haddr, hlen, -, -, tys', htys', hres⟩ := h3 stack depth (by omega)
  rw [hb] at hb'
  cases hb'
  rw [← hk.unique htys'] at hres
  refine ⟨b, hb, fun σ L mem other s fr text hL hlive hsel hm0 ⟨sub, a, as, q4, q5, q6⟩ rel line hstop hline hloc => ?_⟩
  have hS : Shown.Strict ((b.info.world L).target s) (target (typedef w.lib x) (fileDb x.units) m0 w.lossy w.floatStr depth) := by
    rw [← hm0]; exact strict_of L b hL hlive hT
  obtain ⟨pc', -, hpass⟩ := h2 σ (b.info.world L) s fr.pc depth [] (by omega) (by show _ ≤ b.stack; omega)
    (hroot σ L s fr hlive hsel rel line hstop hline hloc) hS (ofFunction found).params none (.inl rfl)
  refine Listing.C84_value_error L other _ s text sub a as q4 q5 s (.inr ⟨_, q6, ?_⟩)
  rw [Whole.C86_evaluated]
  have hfs : (b.info.world L).functions (joinSep (ms ++ [f])) = .ok (ofFunction found :: rest.map ofFunction) := ofFunction_of hdisc
  have hdrop := forall₂_drop es.length hres
  rw [← hl1, List.drop_left, hl1] at hdrop
  have hhead : (((ofFunction found).params).drop es.length).head? = some (full (typedef w.lib x) (fileDb x.units) depth ty desc) := by
    show ((found.params.map (·.2)).drop es.length).head? = _
    cases hq : (found.params.map (·.2)).drop es.length with
    | nil => rw [hq] at hdrop; cases hdrop
    | cons td tds =>
      rw [hq] at hdrop
      cases hdrop with
      | cons h _ => rw [(h4 depth (by omega)).2.1] at h; cases h; rfl
  have hcv : Eval.convertArgs (b.info.world L) (es ++ .str lit :: es2) (ofFunction found).params (St.new s) = (.err, ⟨pc', [], s⟩) :=
    convertArgs_refused hpass (by rw [hhead]; simp only [Eval.convertArg, Eval.stringArg, noText_err hI hno])
  have hev : ∃ pc, Eval.evaluate (b.info.world L) (.call (joinSep (ms ++ [f])) (es ++ .str lit :: es2)) (St.new s) = (.err, ⟨pc, [], s⟩) := by
    simp only [Eval.evaluate, Eval.executeFunction, Eval.Ev.bind, Eval.Ev.lift, hfs, List.head?_cons, Res.ofOption]
    by_cases h0 : (ofFunction found).address = 0
    · exact ⟨none, by simp [h0, Eval.Ev.lift]; rfl⟩
    · by_cases hl : (es ++ .str lit :: es2).length = (ofFunction found).params.length
      · exact ⟨pc', by rw [if_neg h0, if_neg (fun h => h hl)]; simp only [Eval.Ev.bind, hcv]⟩
      · exact ⟨none, by rw [if_neg h0, if_pos hl]; rfl⟩
  obtain ⟨pc, hev⟩ := hev
  rw [hev]

/-! ### Examples -/

/-- A file with the module `m`: the function `run` with the variables `x: W` and `y: V`, `say(s: &str, n: u8) -> u8`, the structure `W` with the method `tell(&self, s: &str) -> u8`, and the structure `V` with the field `w: W`. -/
def sayFile : List UnitOf :=
  [(.node { off := 10, tag := .compileUnit, attrs := [(.language, .lang true)], unitLength := 200 } true false
      [.node { off := 20, tag := .namespace, attrs := [(.name, .str (chars! "m"))] } true true
        [.node { off := 30, tag := .structureType, attrs := [(.name, .str (chars! "W")), (.byteSize, .data 1), (.alignment, .data 1)] } true true
          [.node { off := 31, tag := .member, attrs := [(.name, .str (chars! "a")), (.dataMemberLocation, .data 0), (.type, .ref 60)] } false true [],
           .node { off := 32, tag := .subprogram, attrs := [(.name, .str (chars! "tell")), (.linkageName, .str (chars! "m::W::tell")), (.type, .ref 60)] } true true
            [.node { off := 33, tag := .formalParameter, attrs := [(.name, .str (chars! "self")), (.type, .ref 80)] } false false [],
             .node { off := 34, tag := .formalParameter, attrs := [(.name, .str (chars! "s")), (.type, .ref 70)] } false false []]],
         .node { off := 40, tag := .subprogram, attrs := [(.name, .str (chars! "run")), (.linkageName, .str (chars! "m::run"))], range := some (16, 48) } true true
          [.node { off := 41, tag := .variable, attrs := [(.name, .str (chars! "x")), (.type, .ref 30)] } false true [],
           .node { off := 42, tag := .variable, attrs := [(.name, .str (chars! "y")), (.type, .ref 55)] } false false []],
         .node { off := 50, tag := .subprogram, attrs := [(.name, .str (chars! "say")), (.linkageName, .str (chars! "m::say")), (.type, .ref 60)] } true true
          [.node { off := 51, tag := .formalParameter, attrs := [(.name, .str (chars! "s")), (.type, .ref 70)] } false false [],
           .node { off := 52, tag := .formalParameter, attrs := [(.name, .str (chars! "n")), (.type, .ref 60)] } false false []],
         .node { off := 55, tag := .structureType, attrs := [(.name, .str (chars! "V")), (.byteSize, .data 1), (.alignment, .data 1)] } true true
          [.node { off := 56, tag := .member, attrs := [(.name, .str (chars! "w")), (.dataMemberLocation, .data 0), (.type, .ref 30)] } false false []]],
       .node { off := 60, tag := .baseType, attrs := [(.name, .str (chars! "u8")), (.byteSize, .data 1)] } false true [],
       .node { off := 61, tag := .baseType, attrs := [(.name, .str (chars! "usize")), (.byteSize, .data 8)] } false true [],
       .node { off := 62, tag := .pointerType, attrs := [(.type, .ref 60)] } false true [],
       .node { off := 70, tag := .structureType, attrs := [(.name, .str (chars! "&str")), (.byteSize, .data 16)] } true true
        [.node { off := 71, tag := .member, attrs := [(.name, .str (chars! "data_ptr")), (.dataMemberLocation, .data 0), (.type, .ref 62)] } false false [],
         .node { off := 72, tag := .member, attrs := [(.name, .str (chars! "length")), (.dataMemberLocation, .data 8), (.type, .ref 61)] } false false []],
       .node { off := 80, tag := .pointerType, attrs := [(.name, .str (chars! "&m::W")), (.type, .ref 30)] } false true []], 2)]

/-- An executable with this file: `x` is at 100, if the first register holds 1; there is code for `say`, `run` and `tell`. -/
def sayImage : Executable where
  symbols := [⟨chars! "m::say", 4000, true, 32⟩, ⟨chars! "m::run", 4088, true, 32⟩, ⟨chars! "m::W::tell", 4200, true, 32⟩]
  units := sayFile.map encUnit
  files := [shopLines]
  loc := fun d => if d.off = 41 then some (Vars.fbreg 99) else if d.off = 42 then some (Vars.fbreg 100) else none
  frameBase := fun _ => some (Vars.inReg 0)

/-- The libraries: symbols are not mangled, texts are read byte by byte. -/
def sayLibs : Libs := { toolLibs with lossy := fun bs => bs.map fun b => Char.ofNat b.toNat }

/-- The unit, the module, and the entries of `W`, `tell`, `run`, `say` and `x`. -/
def sayUnit : UnitOf := sayFile.head (by simp [sayFile])
/-- See `sayUnit`. -/
def sayMod : Tree Die := sayUnit.1.kids.head (by simp [sayUnit, sayFile, Tree.kids])
/-- See `sayUnit`. -/
def sayW : Tree Die := sayMod.kids[0]'(by decide)
/-- See `sayUnit`. -/
def sayTell : Tree Die := sayW.kids[1]'(by decide)
/-- See `sayUnit`. -/
def sayRun : Tree Die := sayMod.kids[1]'(by decide)
/-- See `sayUnit`. -/
def saySay : Tree Die := sayMod.kids[2]'(by decide)
/-- See `sayUnit`. -/
def sayX : Die := { off := 41, tag := .variable, attrs := [(.name, .str (chars! "x")), (.type, .ref 30)] }
/-- See `sayUnit`. -/
def sayY : Die := { off := 42, tag := .variable, attrs := [(.name, .str (chars! "y")), (.type, .ref 55)] }
/-- The name of `say`. -/
def sayName : SymbolName := ⟨chars! "say", [], [chars! "m"], chars! "m::say"⟩
/-- The name of `tell`. -/
def tellName : SymbolName := ⟨chars! "tell", [], [chars! "m", chars! "W"], chars! "m::W::tell"⟩

theorem sayFile_ok : FileOk sayFile := by
  refine ⟨by decide, ?_, by decide⟩
  intro u hu _
  simp only [sayFile, List.mem_cons, List.not_mem_nil, or_false] at hu
  subst hu
  refine ⟨rfl, by decide, by decide, ?_⟩
  intro d hd ht
  have : Modules.nameOf d ≠ [] := (by decide : ∀ d ∈ sayUnit.1.entries, d.tag = .namespace → Modules.nameOf d ≠ []) d hd ht
  simp only [Modules.nameOf] at this
  split at this
  · exact ⟨_, by assumption⟩
  · exact absurd rfl this

theorem say_function {d : Die} {l : Str} {lo hi : Nat} (h : Function sayFile d l) (hr : d.range = some (lo, hi)) : d = sayRun.die := by
  obtain ⟨h1, h2, -⟩ := h
  exact (by decide : ∀ d ∈ candidates sayFile, d.range.isSome → d = sayRun.die) d h1 (by rw [hr]; rfl)

theorem say_compiled : Compiled sayLibs sayImage sayFile where
  units := rfl
  file := sayFile_ok
  offsets := by unfold Offsets; decide
  apart := ⟨by decide, fun p hp ht => absurd ht ((by decide : ∀ p ∈ nodes sayFile, p.die.tag ≠ .variantPart) p hp)⟩
  functions := by
    refine ⟨by decide, ?_, ?_, ?_⟩
    · intro u hu
      simp only [sayFile, List.mem_cons, List.not_mem_nil, or_false] at hu
      subst hu
      exact ⟨true, rfl⟩
    · have : ∀ d ∈ candidates sayFile, d.tag = .subprogram → (match d.attr .linkageName with | some (.str _) => true | _ => false) = true := by decide
      intro d hd ht
      have := this d hd ht
      split at this
      · exact .inr ⟨_, by assumption⟩
      · cases this
    · intro d hd s hs lo hi hr
      obtain ⟨l, hf, e, he, n, hl, -, rfl⟩ := linked_iff _ _ _ _ _ hd hs
      cases say_function hf hr
      cases hr
      have ha : e.address ≤ 5000 := (by decide : ∀ e ∈ sayImage.symbols, e.address ≤ 5000) e he
      refine ⟨by simp, ?_⟩
      simp only [u64Max1]
      omega
  tokenizes := plainLib_tokenizes false
  sorts := Address.built_new

theorem say_stopped : StoppedIn sayLibs sayImage sayFile sayRun 4096 24 where
  found := ⟨chars! "m::run", ⟨chars! "run", [], [chars! "m"], chars! "m::run"⟩, 4088, 16, 48, ⟨by decide, rfl, rfl⟩,
    ⟨⟨⟨chars! "m::run", 4088, true, 32⟩, List.mem_of_getElem? (i := 1) rfl, rfl, rfl⟩, by decide, by with_unfolding_all decide⟩, rfl, by omega, rfl, by omega, by
      intro d l' hf hd
      obtain ⟨h1, h2, h3⟩ := hf
      refine (by with_unfolding_all decide : ∀ d ∈ candidates sayFile, linkOf d = some ⟨chars! "run", [], [chars! "m"], chars! "m::run"⟩ → d = sayRun.die) d h1 ?_
      simp only [linkOf, h3]
      exact hd⟩
  alone := fun _ _ _ _ _ h _ _ _ hr _ _ => say_function h hr

theorem say_named (d : Die) (path : List Str) (hd : InModule sayFile d path) (n shown : Str) (l : Layout) (hn : d.attr .name = some (.str n))
    (hs : TypeNames.Names sayLibs.lib.render (TypeNames.qualify path n) shown l) : typedef sayLibs.lib sayImage d.off = some l := by
  have h := C96_types say_compiled d.off
  exact Res.ok.inj (h.symm.trans (C95_named (TypeNames.plainLib false) (TypeNames.plainLib_lexes false) _ sayFile_ok say_compiled.offsets d path hd n shown l hn hs))

theorem say_types : typedef sayLibs.lib sayImage 60 = some (.uint 1) ∧ typedef sayLibs.lib sayImage 70 = some (.strSlice 0 0) :=
  ⟨say_named { off := 60, tag := .baseType, attrs := [(.name, .str (chars! "u8")), (.byteSize, .data 1)] } [] ⟨_, List.mem_cons_self .., rfl, by decide⟩ _ _ _ rfl (TypeNames.names_u8 _),
   say_named { off := 70, tag := .structureType, attrs := [(.name, .str (chars! "&str")), (.byteSize, .data 16)] } [] ⟨_, List.mem_cons_self .., rfl, by decide⟩ _ _ _ rfl .str⟩

theorem say_W_name : TypeNames.Names sayLibs.lib.render (TypeNames.qualify [chars! "m"] (chars! "W")) (chars! "m::W") (.alias (chars! "W")) :=
  book_own (chars! "W") ⟨by simp [TypeNames.IsIdent]; decide, by simp [TypeNames.IsIdent]; decide, by decide⟩

theorem say_W_types : typedef sayLibs.lib sayImage 30 = some (.alias (chars! "W")) ∧ ∃ i, typedef sayLibs.lib sayImage 80 = some (.reference false i) :=
  ⟨say_named { off := 30, tag := .structureType, attrs := [(.name, .str (chars! "W")), (.byteSize, .data 1), (.alignment, .data 1)] } [chars! "m"]
      ⟨_, List.mem_cons_self .., rfl, by decide⟩ _ _ _ rfl say_W_name,
   _, say_named { off := 80, tag := .pointerType, attrs := [(.name, .str (chars! "&m::W")), (.type, .ref 30)] } []
      ⟨_, List.mem_cons_self .., rfl, by decide⟩ _ _ _ rfl (.ref _ _ _ say_W_name (by simp) (by simp))⟩

theorem say_V_type : typedef sayLibs.lib sayImage 55 = some (.alias (chars! "V")) :=
  say_named { off := 55, tag := .structureType, attrs := [(.name, .str (chars! "V")), (.byteSize, .data 1), (.alignment, .data 1)] } [chars! "m"]
    ⟨_, List.mem_cons_self .., rfl, by decide⟩ _ _ _ rfl (book_own (chars! "V") ⟨by simp [TypeNames.IsIdent]; decide, by simp [TypeNames.IsIdent]; decide, by decide⟩)

theorem say_u8 : Is (typedef sayLibs.lib sayImage) (fileDb sayImage.units) 60 (.plain (.uint 1)) := ⟨⟨say_types.1, by simp [Shown.Plain]⟩, by simp [Shown.Desc.parts]⟩

theorem say_str : Is (typedef sayLibs.lib sayImage) (fileDb sayImage.units) 70 (.str 0 8) := by
  refine ⟨⟨⟨_, _, say_types.2⟩, ⟨71, ⟨[], [72], rfl, ⟨_, rfl, rfl⟩, by simp⟩, ⟨_, rfl, rfl⟩⟩, 72, ⟨[71], [], rfl, ⟨_, rfl, rfl⟩, ?_⟩, ⟨_, rfl, rfl⟩⟩, by simp [Shown.Desc.parts]⟩
  simp only [List.mem_singleton, forall_eq]
  rintro ⟨d, h1, h2⟩
  cases h1
  cases h2

theorem say_u8_called : TypeCalled sayLibs sayImage 60 (chars! "u8") :=
  ⟨⟨_, say_u8⟩, .known (t := .prim (chars! "u8")) (.plain say_u8.1 (.prim (by simp [TypeText.fixedTable]))) trivial (by simp [TypeRes.Ordinary, say_types.1])⟩

theorem say_W : Is (typedef sayLibs.lib sayImage) (fileDb sayImage.units) 30 (.struct (chars! "W") 1 1 [(chars! "a", 0, 60)]) := by
  refine ⟨⟨?_, ⟨_, rfl, rfl⟩, ⟨_, rfl, rfl⟩, ⟨_, rfl, rfl⟩, ⟨_, rfl, rfl⟩, [31, 32], rfl, ?_, ?_⟩, ?_⟩
  · simp [TypeRes.Ordinary, say_W_types.1]
  · intro c hc
    rintro ⟨d, h1, h2⟩
    exact absurd h2 (by
      have : ∀ c ∈ [31, 32], ((fileDb sayImage.units).entry c).map Die.tag ≠ some .variantPart := by decide
      have := this c hc
      rw [h1] at this
      simpa using this)
  · rw [show [31, 32].filter (fun c => decide (Parse.tag (fileDb sayImage.units) c = some .member)) = [31] from by decide]
    exact .cons ⟨⟨_, rfl, rfl⟩, ⟨_, rfl, rfl⟩, ⟨_, rfl, rfl⟩⟩ .nil
  · simpa only [Shown.Desc.parts, List.map_cons, List.map_nil, List.mem_singleton, forall_eq] using Known.built (by simp [TypeRes.Ordinary, say_types.1]) say_u8.1 say_u8.2

theorem say_V : Is (typedef sayLibs.lib sayImage) (fileDb sayImage.units) 55 (.struct (chars! "V") 1 1 [(chars! "w", 0, 30)]) := by
  refine ⟨⟨?_, ⟨_, rfl, rfl⟩, ⟨_, rfl, rfl⟩, ⟨_, rfl, rfl⟩, ⟨_, rfl, rfl⟩, [56], rfl, ?_, ?_⟩, ?_⟩
  · simp [TypeRes.Ordinary, say_V_type]
  · intro c hc
    rintro ⟨d, h1, h2⟩
    exact absurd h2 (by
      have : ∀ c ∈ [56], ((fileDb sayImage.units).entry c).map Die.tag ≠ some .variantPart := by decide
      have := this c hc
      rw [h1] at this
      simpa using this)
  · rw [show [56].filter (fun c => decide (Parse.tag (fileDb sayImage.units) c = some .member)) = [56] from by decide]
    exact .cons ⟨⟨_, rfl, rfl⟩, ⟨_, rfl, rfl⟩, ⟨_, rfl, rfl⟩⟩ .nil
  · simpa only [Shown.Desc.parts, List.map_cons, List.map_nil, List.mem_singleton, forall_eq] using Known.user say_W.1.1

theorem say_ref : Is (typedef sayLibs.lib sayImage) (fileDb sayImage.units) 80 (.reference false 30) :=
  ⟨⟨say_W_types.2, ⟨_, rfl, rfl⟩⟩, by simpa [Shown.Desc.parts] using Known.user say_W.1.1⟩

theorem say_str_called : ∃ t, TypeCalled sayLibs sayImage 70 t :=
  ⟨_, ⟨_, say_str⟩, .known (t := .ref false (.prim (chars! "str"))) (.str say_str.1) (by simp [TypeText.RTy.Good]) (by simp [TypeRes.Ordinary, say_types.2])⟩

theorem say_listed {n : SymbolName} {a : Nat} (h : CodeOf sayLibs sayImage n a) : n = sayName ∨ n.lookupName = chars! "run" ∨ n = tellName := by
  obtain ⟨e, he, hd⟩ := h.listed
  have hall : ∀ e ∈ sayImage.symbols, Symbols.demangle some e.raw = some sayName ∨ (Symbols.demangle some e.raw).map SymbolName.lookupName = some (chars! "run") ∨
      Symbols.demangle some e.raw = some tellName := by
    with_unfolding_all decide
  have hd : Symbols.demangle some e.raw = some n := hd
  have := hall e he
  rw [hd] at this
  simpa using this

theorem tell_code : CodeOf sayLibs sayImage tellName 4200 := by
  refine ⟨sayImage.symbols.take 2, ⟨chars! "m::W::tell", 4200, true, 32⟩, _, rfl, rfl, by with_unfolding_all decide, rfl, ?_⟩
  intro e he; cases he

theorem say_code : CodeOf sayLibs sayImage sayName 4000 := by
  refine ⟨[], ⟨chars! "m::say", 4000, true, 32⟩, _, rfl, rfl, by with_unfolding_all decide, rfl, ?_⟩
  intro e he _ n hn h
  have hd : Symbols.demangle some e.raw = some n := hn
  have := (by with_unfolding_all decide : ∀ e ∈ sayImage.symbols.drop 1, (Symbols.demangle some e.raw).map SymbolName.fullPath ≠ some (chars! "m::say")) e he
  rw [hd, Option.map_some, h.2.2] at this
  exact this rfl

theorem say_entry : EntryOf sayLibs sayImage sayFile sayName saySay.die := by
  refine ⟨(candidates sayFile).takeWhile (fun d => d.off != 50), ((candidates sayFile).dropWhile (fun d => d.off != 50)).tail, by decide, ⟨rfl, _, rfl,
    ⟨_, List.mem_cons_self .., rfl⟩, by with_unfolding_all decide⟩, ?_⟩
  rintro d hd ⟨h1, l, h2, -, h3⟩
  exact (by with_unfolding_all decide : ∀ d ∈ ((candidates sayFile).dropWhile (fun d => d.off != 50)).tail, d.tag = .subprogram → linkOf d ≠ some sayName) d hd h1 (by unfold linkOf; rw [h2]; exact h3)

theorem say_node : saySay ∈ nodes sayFile := by
  simp [nodes, sayFile, subtrees, subtreesList, saySay, sayMod, sayUnit, Tree.kids]

theorem say_signature (n : SymbolName) (a : Nat) (t : Tree Die) (h : Fitting sayLibs sayImage [chars! "m"] (chars! "say") n a) (ht : t ∈ nodes sayFile)
    (hE : EntryOf sayLibs sayImage sayFile n t.die) (ty : Nat) (hty : InSignature t ty) : ∃ text, TypeCalled sayLibs sayImage ty text := by
  obtain ⟨hcode, hn, -⟩ := h
  rcases say_listed hcode with rfl | h | rfl
  · have hd := hE.unique say_entry
    have ht : t = saySay := List.inj_on_of_nodup_map say_compiled.offsets ht say_node (by rw [hd])
    subst ht
    rcases hty with h | ⟨k, hk, -, h⟩
    · cases h; exact ⟨_, say_u8_called⟩
    · have hk : k = saySay.kids[0]'(by decide) ∨ k = saySay.kids[1]'(by decide) := by simpa [saySay, sayMod, sayUnit, sayFile, Tree.kids] using hk
      rcases hk with rfl | rfl
      · cases h; exact say_str_called
      · cases h; exact ⟨_, say_u8_called⟩
  · rw [h] at hn; cases hn
  · cases hn

theorem say_callee : Callee sayLibs sayImage sayFile [chars! "m"] (chars! "say") 4000 saySay where
  fits := by
    refine ⟨sayName, ⟨say_code, rfl, [], rfl⟩, say_entry, ?_⟩
    rintro n' a' ⟨hcode, hn, -⟩
    rcases say_listed hcode with rfl | h | rfl
    · decide
    · rw [h] at hn; cases hn
    · cases hn
  node := say_node

theorem say_var {d : Die} (h : Declared.VariableEntry sayRun d) : d = sayX ∨ d = sayY := by
  obtain ⟨h1, h2⟩ := h
  have he : reach Vars.opened sayRun = [sayRun.die, sayX, sayY] := by decide
  rw [he] at h1
  rcases List.mem_cons.1 h1 with rfl | h1
  · rcases h2 with h2 | h2 <;> cases h2
  · simpa using h1

theorem say_stops : Stops sayLibs sayImage sayFile sayUnit shopLines sayRun where
  compiled := say_compiled
  unit := List.mem_cons_self ..
  fn := by simp [sayUnit, sayFile, subtrees, subtreesList, sayRun, sayMod, Tree.kids]
  types := by
    intro d ty hd hty
    rcases say_var hd with rfl | rfl
    · cases hty; exact .user say_W.1.1
    · cases hty; exact .user say_V.1.1

/-- A debugger like `toy`, in which every call but `malloc` leaves 100, and `bookMem` for the memory. -/
noncomputable def talker : Remote.Lldb Remote.Toy :=
  { Remote.toy with
    evaluate := fun s t =>
      open Classical in
      if ∃ n, t = Remote.mallocExpr n then Remote.toy.evaluate s t else (.value true false 100 none none none none, ⟨bookMem, s.free⟩) }

/-- It meets what is assumed of a debugger. -/
theorem talker_heap : ∃ f, Heap talker Remote.Toy.mem (fun s z => z < s.free) (fun s => 2 ^ 64 - s.free) f ∧ f.pc = 4096 ∧ Calls.readRegisterByIndex f.registers 0 = some 1 := by
  obtain ⟨h1, h2, h3, h4, h5⟩ := Remote.toy_ok
  have hm : ∀ s n, talker.evaluate s (Remote.mallocExpr n) = Remote.toy.evaluate s (Remote.mallocExpr n) := fun s n => if_pos ⟨n, rfl⟩
  refine ⟨_, ⟨h1, fun s => ⟨⟨_, rfl, rfl⟩, by decide, by decide, by decide⟩, h2, h3, ⟨h4.1, h4.2⟩, ?_, ?_, ?_⟩, rfl, by decide⟩
  · intro s n a x y t u s' h
    refine h5 s n a x y t u s' ?_
    rw [← h]
    exact (hm s n).symm
  · intro s n hn
    simp only [hm]
    have he : ∃ k, Remote.mallocExpr n = chars! "(void*)malloc(" ++ Layout.natStr k ++ chars! ")" := ⟨n, rfl⟩
    have hc : he.choose = n := (Calls.natStr_inj (List.append_cancel_left (List.append_cancel_right he.choose_spec))).symm
    refine ⟨s.free, none, none, none, none, ⟨Remote.grow s.mem s.free n, s.free + n⟩, ?_, by show 2 ^ 64 - s.free ≤ 2 ^ 64 - (s.free + n) + n; omega⟩
    simp only [Remote.toy, dif_pos he, hc]
    rw [if_pos (by omega)]
  · intro s a d s' h
    have h : Remote.toy.write s a d = (.done d.length true, s') := h
    simp only [Remote.toy] at h
    cases hs : s.mem.slice a d.length with
    | some _ => rw [hs] at h; cases h; exact ⟨fun _ => Iff.rfl, rfl⟩
    | none => rw [hs] at h; simp at h

theorem call_not_malloc (addr : Nat) (as : List Arg) (k n : Nat) : Calls.functionExpr addr as (some k) ≠ Remote.mallocExpr n := by
  intro h
  obtain ⟨y, hy⟩ : ∃ y, Calls.functionExpr addr as (some k) = y ++ chars! "); &result" := ⟨_, rfl⟩
  rw [hy] at h
  have h := congrArg (fun l => l.reverse.head?) h
  simp [Remote.mallocExpr] at h

theorem method_not_malloc (addr obj : Nat) (as : List Arg) (k n : Nat) : Calls.methodExpr addr obj as (some k) ≠ Remote.mallocExpr n := by
  intro h
  obtain ⟨y, hy⟩ : ∃ y, Calls.methodExpr addr obj as (some k) = y ++ chars! "); &result" := ⟨_, rfl⟩
  rw [hy] at h
  have h := congrArg (fun l => l.reverse.head?) h
  simp [Remote.mallocExpr] at h

theorem say_typed : Whole.Typed (chars! "p m::say(\"hi\", x.a)") (.call (chars! "m::say") [.str (chars! "hi"), .field (.var (chars! "x")) (chars! "a")]) :=
  ⟨chars! "p", chars! "m::say(\"hi\",", [chars! "x.a)"], rfl, .inl rfl, by with_unfolding_all rfl⟩

theorem say_local {f : Remote.Frame} (hreg : Calls.readRegisterByIndex f.registers 0 = some 1) : Local sayImage shopLines sayRun f (chars! "x") 100 30 := by
  have hx : ∀ d, Declared.VariableEntry sayRun d → d.attr .name = some (.str (chars! "x")) → d = sayX := by
    intro d hd hn
    rcases say_var hd with rfl | rfl
    · rfl
    · cases hn
  refine ⟨sayX, 0, 99, 1, ⟨by decide, .inr rfl⟩, rfl, hx, rfl, ⟨none, ?_⟩, rfl, hreg, rfl, by decide⟩
  exact (Declared.C94_position _ _ _ _).1 (by decide : Declared.position shopLines (fileDb sayImage.units) 41 = Res.ok none)

/-- `C104_function_partial` at work: the user types `rd p m::say("hi", x.a)`. -/
example (other : Wire.Json → Str) : ∃ N b s', binary sayLibs N N sayImage = .ok b ∧
    rd talker other b.program.backend ⟨fun _ => none, 1000⟩ (chars! "p m::say(\"hi\", x.a)") = some (.text (chars! "type: u8\nvalue: 7\n"), s') := by
  obtain ⟨f, hH, hpc, hreg⟩ := talker_heap
  obtain ⟨N, hN⟩ := C104_function_partial (m0 := fun _ => none) (m := bookMem) (vs := [(chars! "x", 100, 30)]) (tys := [70, 60]) (es := [.str (chars! "hi"), .field (.var (chars! "x")) (chars! "a")]) say_stops book_clean_m
    (Symbols.clean_of_check _ (by decide) (by decide) (by decide) (by decide)) (by decide) say_signature say_callee (by decide)
    (.text (.str say_str (.inl ⟨rfl, rfl⟩) (by decide)) (by decide) (.place say_W (.field .var (fun _ => rfl) say_W (List.mem_cons_self ..) (by decide) (by decide)) (by simp [TypeRes.Ordinary, say_types.1]) (.one say_u8 rfl) .nil)) (.arg rfl rfl (.arg rfl rfl .nil)) rfl (.one say_u8 rfl) (by decide) (n := 0) (by omega)
    (.plain say_u8 ⟨7, by unfold Mem.HoldsNat; decide, rfl⟩) (by intro h; cases h) say_u8_called.2 (a := 100) (by decide) (by decide)
  obtain ⟨b, hb, h⟩ := hN N N (Nat.le_refl _) (Nat.le_refl _)
  obtain ⟨as2, s1, -, -, h⟩ := h _ talker Remote.Toy.mem _ _ f other ⟨fun _ => none, 1000⟩ _ hH (fun _ _ h => by cases h) (by decide) say_typed 24 5 (by rw [hpc]; exact say_stopped) shop_line (by
    intro v hv
    cases List.mem_singleton.1 hv
    exact say_local hreg)
  exact ⟨N, b, _, hb, h ⟨bookMem, s1.free⟩ none none none none rfl (if_neg fun ⟨n, hn⟩ => call_not_malloc _ _ _ _ hn)⟩

theorem tell_home : HomeOf sayLibs sayImage sayFile (chars! "W") (.struct (chars! "W") 1 1 [(chars! "a", 0, 60)]) 30 sayMod [chars! "m"] [sayW] where
  named := rfl
  known := by decide
  described := say_W
  unit := ⟨sayUnit, List.mem_cons_self .., rfl, .sub .root (List.mem_cons_self ..) rfl, sayW, List.mem_cons_self .., rfl, by decide,
    { off := 60, tag := .baseType, attrs := [(.name, .str (chars! "u8")), (.byteSize, .data 1)] }, by decide, by decide, by decide⟩
  nested := by decide
  homes := .same rfl say_W rfl (.other (by decide) (.other (by decide) (.different say_V (by simp [SameKind]) .nil)))

theorem tell_receiver : HasReceiver sayLibs sayImage (chars! "W") (.struct (chars! "W") 1 1 [(chars! "a", 0, 60)]) sayTell :=
  ⟨_, 80, _, _, ⟨[], rfl, by simp, rfl, rfl⟩, .inl rfl, .ref say_ref (.own say_W.1.1 ⟨_, rfl, rfl⟩)⟩

theorem tell_functions : ∃ t, FunctionsOf sayLibs sayImage (chars! "W") (.struct (chars! "W") 1 1 [(chars! "a", 0, 60)]) sayMod [sayW] [(true, t)] [] := by
  obtain ⟨str, hstr⟩ := say_str_called
  have hr : Reaches (typedef sayLibs.lib sayImage) (fileDb sayImage.units) (chars! "W") 30 := .own say_W.1.1 ⟨_, rfl, rfl⟩
  suffices h : ∃ t, FnLines sayLibs sayImage (chars! "W") (.struct (chars! "W") 1 1 [(chars! "a", 0, 60)]) ([sayW].flatMap Tree.kids) [(true, t)] from ⟨h.choose, h.choose_spec, .nil⟩
  refine ⟨chars! "  - fn " ++ nameOr sayTell.die (chars! "<anonymous>") ++ chars! "(" ++ Discovery.commaSep [chars! "&self", chars! "s: " ++ str] ++ chars! ")" ++ chars! " -> u8" ++ chars! " (callable)", ?_⟩
  refine .other (by decide) (.fn rfl ⟨[chars! "&self", chars! "s: " ++ str], chars! " -> u8", _, .some rfl say_u8_called (by decide), .inl ⟨?_, rfl⟩, rfl, .inl ⟨rfl, _, 80, _, _, [chars! "s: " ++ str], ⟨[], rfl, by simp, rfl, rfl⟩,
    .inl rfl, .ref say_ref hr, .arg ⟨rfl, rfl⟩ hstr .nil, rfl⟩⟩ .nil)
  exact ⟨chars! "m::W::tell", tellName, _, tellName, rfl, by with_unfolding_all decide, List.mem_of_getElem? (i := 2) rfl, rfl, by with_unfolding_all decide, ⟨rfl, rfl, rfl⟩⟩

/-- `C104_method_partial` at work: the user types `rd p x.tell("hi")`. -/
example (other : Wire.Json → Str) : ∃ N b s', binary sayLibs N N sayImage = .ok b ∧
    rd talker other b.program.backend ⟨fun _ => none, 1000⟩ (chars! "p x.tell(\"hi\")") = some (.text (chars! "type: u8\nvalue: 7\n"), s') := by
  obtain ⟨f, hH, hpc, hreg⟩ := talker_heap
  obtain ⟨t, hfn⟩ := tell_functions
  obtain ⟨N, hN⟩ := C104_method_partial (m0 := fun _ => none) (m := bookMem) (tys := [70]) (es := [.str (chars! "hi")]) (v := chars! "x") (obj := 100) say_stops tell_home hfn (g := sayTell) (name := chars! "tell")
    ⟨[], [], rfl, tell_receiver, rfl, by simp⟩ ⟨chars! "m::W::tell", tellName, tellName, rfl, by with_unfolding_all rfl, ⟨rfl, rfl, rfl⟩, tell_code⟩ (by decide)
    (.text (.str say_str (.inl ⟨rfl, rfl⟩) (by decide)) (by decide) .nil) (.arg rfl rfl (.arg rfl rfl .nil)) rfl (.one say_u8 rfl) (by decide) (n := 0) (by omega)
    (.plain say_u8 ⟨7, by unfold Mem.HoldsNat; decide, rfl⟩) (by intro h; cases h) say_u8_called.2 (a := 100) (by decide) (by decide)
  obtain ⟨b, hb, h⟩ := hN N N (Nat.le_refl _) (Nat.le_refl _)
  obtain ⟨as2, s1, -, -, h⟩ := h _ talker Remote.Toy.mem _ _ f other ⟨fun _ => none, 1000⟩ (chars! "p x.tell(\"hi\")") hH (fun _ _ h => by cases h) (by decide) ⟨chars! "p", chars! "x.tell(\"hi\")", [], rfl, .inl rfl, by with_unfolding_all rfl⟩ 24 5
    (by rw [hpc]; exact say_stopped) shop_line (by
      intro v hv
      cases List.mem_singleton.1 hv
      exact say_local hreg)
  exact ⟨N, b, _, hb, h ⟨bookMem, s1.free⟩ none none none none rfl (if_neg fun ⟨n, hn⟩ => method_not_malloc _ _ _ _ _ hn)⟩

/-- `C104_refused` at work: the user types `rd p m::say(5, "hi")`. -/
example (other : Wire.Json → Str) : ∃ N b, binary sayLibs N N sayImage = .ok b ∧
    rd Remote.toy other b.program.backend ⟨bookMem, 1000⟩ (chars! "p m::say(5, \"hi\")") = some (.error, ⟨bookMem, 1000⟩) := by
  obtain ⟨hlive, hL, -⟩ := Remote.toy_ok
  obtain ⟨f, hf, hpc, -⟩ := toy_selected ⟨bookMem, 1000⟩
  obtain ⟨N, hN⟩ := C104_refused (m0 := bookMem) (tys1 := [70]) (tys2 := []) say_stops book_clean_m
    (Symbols.clean_of_check _ (by decide) (by decide) (by decide) (by decide)) (by decide) say_signature say_callee (.number (n := 5) .nil) say_u8 trivial (.arg rfl rfl (.arg rfl rfl .nil)) rfl (chars! "hi") []
  obtain ⟨b, hb, h⟩ := hN N N (Nat.le_refl _) (Nat.le_refl _)
  exact ⟨N, b, hb, h _ Remote.toy Remote.Toy.mem other ⟨bookMem, 1000⟩ f _ hL (hlive _) hf rfl ⟨chars! "p", chars! "m::say(5,", [chars! "\"hi\")"], rfl, .inl rfl, by with_unfolding_all rfl⟩ 24 5
    (by rw [hpc]; exact say_stopped) shop_line (by intro v hv; cases hv)⟩

end Rudy.Image
