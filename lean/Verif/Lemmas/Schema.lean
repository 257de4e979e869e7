import Verif.Spec.Schema
/- Helper lemmas for the schema properties. -/
namespace Pq

theorem asI32_toInt (n : Nat) (h : n < 2 ^ 31) : (asI32 n).toInt = n := by
  unfold asI32
  rw [BitVec.toInt_eq_toNat_cond]
  simp only [BitVec.toNat_ofNat]
  rw [Nat.mod_eq_of_lt (by omega), if_pos (by omega)]

theorem toUsize_asI32 (n : Nat) (h : n < 2 ^ 31) : toUsize (asI32 n) = .ok n := by
  unfold toUsize
  rw [asI32_toInt n h, if_pos (by omega)]
  rfl

theorem asI32_ne_zero (n : Nat) (h0 : 0 < n) (h : n < 2 ^ 31) : asI32 n ≠ 0#32 := by
  intro hc
  have := asI32_toInt n h
  rw [hc] at this
  simp at this
  omega

theorem Repetition.roundtrip (x : Repetition) : Repetition.ofThrift x.toThrift = .ok x := by
  cases x <;> rfl

theorem PhysicalType.roundtrip (t : PhysicalType) (h : Spec.SmallPhysical t) :
    PhysicalType.ofThrift t.toThrift.1 t.toThrift.2 = .ok t := by
  cases t with
  | fixedLenByteArray n =>
    simp only [PhysicalType.toThrift, PhysicalType.ofThrift]
    simp only [show (7#32 = 0#32) = False from by simp, show (7#32 = 1#32) = False from by simp,
      show (7#32 = 2#32) = False from by simp, show (7#32 = 3#32) = False from by simp,
      show (7#32 = 4#32) = False from by simp, show (7#32 = 5#32) = False from by simp,
      show (7#32 = 6#32) = False from by simp, if_false, if_true, Res.ofOption, Res.ok_bind,
      toUsize_asI32 n h]
  | _ => rfl

theorem PrimitiveConvertedType.roundtrip (c : PrimitiveConvertedType) (h : Spec.SmallConverted c) :
    PrimitiveConvertedType.ofThrift c.toThrift.1 c.toThrift.2 = .ok c := by
  cases c with
  | decimal p s =>
    simp only [PrimitiveConvertedType.toThrift, PrimitiveConvertedType.ofThrift]
    simp only [show (5#32 = 0#32) = False from by simp, show (5#32 = 4#32) = False from by simp,
      if_false, if_true, toUsize_asI32 p h.1, toUsize_asI32 s h.2, Res.ok_bind]
  | _ => rfl

theorem TimeUnit.roundtrip (u : TimeUnit) : TimeUnit.ofThrift u.toThrift = u := by cases u <;> rfl

theorem PrimitiveLogicalType.roundtrip (l : PrimitiveLogicalType) (h : Spec.SmallLogical l) :
    PrimitiveLogicalType.ofThrift l.toThrift = .ok l := by
  cases l with
  | decimal p s =>
    simp only [PrimitiveLogicalType.toThrift, PrimitiveLogicalType.ofThrift,
      toUsize_asI32 p h.1, toUsize_asI32 s h.2, Res.ok_bind]
  | time u b => simp only [PrimitiveLogicalType.toThrift, PrimitiveLogicalType.ofThrift, TimeUnit.roundtrip]
  | timestamp u b =>
    simp only [PrimitiveLogicalType.toThrift, PrimitiveLogicalType.ofThrift, TimeUnit.roundtrip]
  | integer t => cases t <;> rfl
  | _ => rfl

theorem GroupConvertedType.roundtrip (c : GroupConvertedType) :
    GroupConvertedType.ofThrift c.toThrift = .ok c := by cases c <;> rfl

theorem GroupLogicalType.roundtrip (c : GroupLogicalType) :
    GroupLogicalType.ofThrift c.toThrift = .ok c := by cases c <;> rfl

theorem transposeMap_roundtrip {α β : Type} (f : β → Res α) (g : α → β) (o : Option α)
    (h : ∀ a, o = some a → f (g a) = .ok a) : transposeMap f (o.map g) = .ok o := by
  cases o with
  | none => rfl
  | some a => simp [transposeMap, h a rfl, Res.map']

theorem transposeMap_none {α β : Type} (f : α → Res β) : transposeMap f none = .ok none := rfl
theorem transposeMap_some {α β : Type} (f : α → Res β) (a : α) :
    transposeMap f (some a) = (f a).map' some := rfl

theorem toElement_name (p : PrimitiveType) : p.toElement.name = p.fieldInfo.name := rfl

/-- A primitive field is read back from its element. -/
theorem primitiveOfElement_toElement (p : PrimitiveType) (h : Spec.GoodPrimitive p) :
    primitiveOfElement p.toElement = .ok (.primitive p) := by
  obtain ⟨h1, h2, h3, h4⟩ := h
  obtain ⟨⟨name, rep, id⟩, lt, ct, pt⟩ := p
  simp only at h1 h2 h3 h4
  have hl : transposeMap PrimitiveLogicalType.ofThrift (lt.map (·.toThrift)) = .ok lt :=
    transposeMap_roundtrip _ _ _ (fun a ha => PrimitiveLogicalType.roundtrip a (h3 a ha))
  cases ct with
  | none =>
    simp only [PrimitiveType.toElement, primitiveOfElement, Res.ofOption, Res.ok_bind,
      Repetition.roundtrip, transposeMap_none, hl, PhysicalType.roundtrip pt h1, h4]
  | some c =>
    have hc := PrimitiveConvertedType.roundtrip c (h2 c rfl)
    have hd : maybeDecimal (c.toThrift.2.map (·.1)) (c.toThrift.2.map (·.2)) = .ok c.toThrift.2 := by
      cases c <;> rfl
    simp only [PrimitiveType.toElement, primitiveOfElement, Res.ofOption, Res.ok_bind,
      Repetition.roundtrip, transposeMap_some, hl, PhysicalType.roundtrip pt h1, h4, hd, hc, Res.map']

theorem toElement_children (p : PrimitiveType) : p.toElement.numChildren = none := rfl

theorem getElem?_of_drop {α : Type} {l a b : List α} {i : Nat} {x : α}
    (h : l.drop i = (x :: a) ++ b) : l[i]? = some x := by
  have : (l.drop i)[0]? = some x := by rw [h]; rfl
  rwa [List.getElem?_drop, Nat.add_zero] at this

theorem drop_of_drop {α : Type} {l a b : List α} {i : Nat}
    (h : l.drop i = a ++ b) : l.drop (i + a.length) = b := by
  rw [← List.drop_drop, h, List.drop_left]

theorem toThriftHelper_pos (t : ParquetType) (r : Bool) : 0 < (t.toThriftHelper r).length := by
  cases t with
  | primitive p => simp [ParquetType.toThriftHelper]
  | group i l c fs => simp [ParquetType.toThriftHelper]

theorem groupOfElement_ok (e : Thrift.SchemaElement) (info : FieldInfo)
    (l : Option GroupLogicalType) (c : Option GroupConvertedType) (fields : List ParquetType)
    (hr : e.repetitionType = some info.repetition.toThrift) (hn : e.name = info.name)
    (hi : e.fieldId = info.id) (hc : e.convertedType = c.map (·.toThrift))
    (hl : e.logicalType = l.map (·.toThrift)) :
    groupOfElement e fields = .ok (.group info l c fields) := by
  unfold groupOfElement
  rw [hr, hn, hi, hc, hl]
  simp only [Res.ofOption, Res.ok_bind, Repetition.roundtrip,
    transposeMap_roundtrip GroupConvertedType.ofThrift (·.toThrift) c
      (fun a _ => GroupConvertedType.roundtrip a),
    transposeMap_roundtrip GroupLogicalType.ofThrift (·.toThrift) l
      (fun a _ => GroupLogicalType.roundtrip a)]

mutual
theorem helper_tree (elements : List Thrift.SchemaElement) (t : ParquetType) (hg : Spec.GoodTree t)
    (fuel index : Nat) (rest : List Thrift.SchemaElement) (hi : index ≠ 0)
    (hf : (t.toThriftHelper false).length ≤ fuel)
    (hd : elements.drop index = t.toThriftHelper false ++ rest) :
    fromThriftHelper elements fuel index =
      .ok (index + (t.toThriftHelper false).length, t) := by
  cases t with
  | primitive p =>
    cases fuel with
    | zero => simp [ParquetType.toThriftHelper] at hf
    | succ fuel =>
      simp only [ParquetType.toThriftHelper] at hd ⊢
      unfold fromThriftHelper
      rw [getElem?_of_drop hd]
      simp only [toElement_children]
      rw [primitiveOfElement_toElement p (by simpa [Spec.GoodTree] using hg)]
      rfl
  | group info l c fields =>
    cases fuel with
    | zero => simp [ParquetType.toThriftHelper] at hf
    | succ fuel =>
      simp only [Spec.GoodTree] at hg
      obtain ⟨h0, h31, hgs⟩ := hg
      simp only [ParquetType.toThriftHelper] at hd hf ⊢
      simp only [List.length_cons] at hf ⊢
      have hd' := drop_of_drop (a := [_]) (b := ParquetType.toThriftList fields ++ rest) (by simpa using hd)
      simp only [List.length_cons, List.length_nil, Nat.zero_add] at hd'
      have hcs := helper_trees elements fields hgs fuel (index + 1) rest (by omega) (by omega) hd'
      unfold fromThriftHelper
      rw [getElem?_of_drop hd]
      simp only [if_neg (asI32_ne_zero _ h0 h31), asI32_toInt _ h31, Int.toNat_natCast, hcs,
        if_neg hi]
      rw [groupOfElement_ok _ info l c fields rfl rfl rfl rfl rfl]
      simp only [Res.map', Res.ok.injEq, Prod.mk.injEq, and_true]
      omega
theorem helper_trees (elements : List Thrift.SchemaElement) (ts : List ParquetType)
    (hg : Spec.GoodTrees ts) (fuel index : Nat) (rest : List Thrift.SchemaElement) (hi : index ≠ 0)
    (hf : (ParquetType.toThriftList ts).length ≤ fuel)
    (hd : elements.drop index = ParquetType.toThriftList ts ++ rest) :
    childrenLoop (fromThriftHelper elements fuel) ts.length index =
      .ok (index + (ParquetType.toThriftList ts).length, ts) := by
  cases ts with
  | nil => simp [childrenLoop, ParquetType.toThriftList]
  | cons t ts =>
    simp only [Spec.GoodTrees] at hg
    simp only [ParquetType.toThriftList, List.length_append, List.append_assoc] at hd hf ⊢
    simp only [List.length_cons, childrenLoop]
    rw [helper_tree elements t hg.1 fuel index _ hi (by omega) hd]
    simp only [Res.ok_bind]
    rw [helper_trees elements ts hg.2 fuel _ rest (by omega) (by omega) (drop_of_drop hd)]
    simp only [Res.ok_bind, Res.ok.injEq, Prod.mk.injEq, and_true]
    omega
end

/-- The whole schema is read back. -/
theorem tryFromThrift_toThrift (name : String) (fields : List ParquetType)
    (h0 : 0 < fields.length) (h31 : fields.length < 2 ^ 31) (hg : Spec.GoodTrees fields) :
    ParquetType.tryFromThrift (ParquetType.newRoot name fields).toThrift =
      .ok (ParquetType.newRoot name fields) := by
  unfold ParquetType.toThrift ParquetType.newRoot
  generalize hE : ParquetType.toThriftHelper _ true = elements
  have hE' := hE
  simp only [ParquetType.toThriftHelper] at hE'
  have hlen : elements.length = (ParquetType.toThriftList fields).length + 1 := by rw [← hE']; simp
  have hd : elements.drop 1 = ParquetType.toThriftList fields ++ [] := by rw [← hE']; simp
  have hcs := helper_trees elements fields hg elements.length 1 [] (by omega) (by omega) hd
  have hroot : fromThriftHelper elements (elements.length + 1) 0 =
      .ok (elements.length, ParquetType.newRoot name fields) := by
    unfold fromThriftHelper
    rw [show elements[0]? = some _ from by rw [← hE']; rfl]
    simp only [if_neg (asI32_ne_zero _ h0 h31), asI32_toInt _ h31, Int.toNat_natCast, Nat.zero_add, hcs,
      if_true]
    simp only [Res.ok.injEq, Prod.mk.injEq, and_true]
    omega
  unfold ParquetType.tryFromThrift
  have htop : topLevel elements (elements.length + 1) 0 = .ok [ParquetType.newRoot name fields] := by
    rw [topLevel, if_pos (by omega), hroot]
    simp only [Res.ok_bind]
    rw [show elements.length = (elements.length - 1) + 1 from by omega, topLevel, if_neg (by omega)]
    rfl
  rw [htop]
  rfl

/-! ### leaves -/

theorem enterLevels_eq (i : FieldInfo) (path : List FieldInfo) :
    enterLevels i.repetition (BitVec.ofNat 16 (Spec.repLevel path)) (BitVec.ofNat 16 (Spec.defLevel path)) =
      (BitVec.ofNat 16 (Spec.repLevel (path ++ [i])), BitVec.ofNat 16 (Spec.defLevel (path ++ [i]))) := by
  obtain ⟨name, rep, id⟩ := i
  cases rep <;>
    simp [enterLevels, Spec.repLevel, Spec.defLevel, List.filter_append, BitVec.ofNat_add]

theorem repLevel_le_defLevel (path : List FieldInfo) : Spec.repLevel path ≤ Spec.defLevel path := by
  unfold Spec.repLevel Spec.defLevel
  induction path with
  | nil => simp
  | cons i path ih =>
    obtain ⟨name, rep, id⟩ := i
    cases rep <;> simp <;> omega

/-- The column descriptor the specification gives to a leaf reached through `path`. -/
def leafColumn (base : ParquetType) (pre : List FieldInfo) (lp : List FieldInfo × PrimitiveType) :
    ColumnDescriptor :=
  { descriptor :=
      { primitiveType := lp.2
        maxDefLevel := BitVec.ofNat 16 (Spec.defLevel (pre ++ lp.1))
        maxRepLevel := BitVec.ofNat 16 (Spec.repLevel (pre ++ lp.1)) }
    pathInSchema := (pre ++ lp.1).map (·.name)
    baseType := base }

mutual
theorem buildTree_eq (t base : ParquetType) (pre : List FieldInfo) :
    buildTree t base (BitVec.ofNat 16 (Spec.repLevel pre)) (BitVec.ofNat 16 (Spec.defLevel pre))
      (pre.map (·.name)) = (Spec.leafPaths t).map (leafColumn base pre) := by
  cases t with
  | primitive p =>
    simp [buildTree, Spec.leafPaths, leafColumn, enterLevels_eq]
  | group info l c fields =>
    simp only [buildTree, Spec.leafPaths, enterLevels_eq]
    have := buildTrees_eq fields base (pre ++ [info])
    rw [List.map_append, List.map_cons, List.map_nil] at this
    rw [this, List.map_map]
    apply List.map_congr_left
    intro x _
    simp [leafColumn]
theorem buildTrees_eq (ts : List ParquetType) (base : ParquetType) (pre : List FieldInfo) :
    buildTrees ts base (BitVec.ofNat 16 (Spec.repLevel pre)) (BitVec.ofNat 16 (Spec.defLevel pre))
      (pre.map (·.name)) = (Spec.leafPathsList ts).map (leafColumn base pre) := by
  cases ts with
  | nil => simp [buildTrees, Spec.leafPathsList]
  | cons t ts =>
    simp only [buildTrees, Spec.leafPathsList, List.map_append]
    rw [buildTree_eq t base pre, buildTrees_eq ts base pre]
end

/-! ### annotations -/

theorem pow10_log (n p : Nat) : 10 ^ p ≤ n ↔ (n ≠ 0 ∧ p ≤ Nat.log 10 n) := by
  constructor
  · intro h
    have hn : n ≠ 0 := by
      have : 0 < 10 ^ p := Nat.pos_of_ne_zero (by simp)
      omega
    exact ⟨hn, (Nat.le_log_iff_pow_le (by omega) hn).2 h⟩
  · intro ⟨hn, h⟩
    exact (Nat.le_log_iff_pow_le (by omega) hn).1 h

theorem maxPrecision_small (n : Nat) (h : n ≤ 128) :
    maxPrecision n = .ok (if n = 0 then 0 else Nat.log 10 (2 ^ (8 * n - 1) - 1)) := by
  unfold maxPrecision
  rw [asI32_toInt n (by omega)]
  simp only
  rw [if_neg (by omega), if_neg (by omega)]
  by_cases h0 : n = 0
  · subst h0; simp
  · rw [if_neg (by omega), if_neg (by omega), if_neg h0]
    congr 3
    congr 1
    omega

end Pq

namespace Pq

/-! ### reading arbitrary elements terminates without a panic -/

theorem bind_ne_panic {α β : Type} {x : Res α} {f : α → Res β} (hx : x ≠ .panic)
    (hf : ∀ a, x = .ok a → f a ≠ .panic) : (x >>= f) ≠ .panic := by
  cases x with
  | ok a => exact hf a rfl
  | err e => simp
  | panic => exact absurd rfl hx

theorem ite_ne_panic {α : Type} {c : Prop} [Decidable c] {x y : Res α} (hx : x ≠ .panic)
    (hy : y ≠ .panic) : (if c then x else y) ≠ .panic := by
  split <;> assumption

theorem map'_ne_panic {α β : Type} {x : Res α} {f : α → β} (hx : x ≠ .panic) :
    Res.map' f x ≠ .panic := by
  cases x <;> simp_all [Res.map']

theorem ofOption_ne_panic {α : Type} (e : Err) (o : Option α) : Res.ofOption e o ≠ .panic := by
  cases o <;> simp [Res.ofOption]

theorem toUsize_ne_panic {w : Nat} (x : BitVec w) : toUsize x ≠ .panic := by
  unfold toUsize; split <;> simp

theorem Repetition.ofThrift_ne_panic (x : I32) : Repetition.ofThrift x ≠ .panic := by
  unfold Repetition.ofThrift; repeat' split
  all_goals simp

theorem PhysicalType.ofThrift_ne_panic (x : I32) (l : Option I32) :
    PhysicalType.ofThrift x l ≠ .panic := by
  unfold PhysicalType.ofThrift
  repeat' split
  all_goals first | (simp; done) | skip
  exact bind_ne_panic (ofOption_ne_panic _ _) fun a _ =>
    bind_ne_panic (toUsize_ne_panic _) fun _ _ => by simp

theorem PrimitiveConvertedType.ofThrift_ne_panic (x : I32) (l : Option (I32 × I32)) :
    PrimitiveConvertedType.ofThrift x l ≠ .panic := by
  unfold PrimitiveConvertedType.ofThrift
  refine ite_ne_panic (by simp) (ite_ne_panic (by simp) (ite_ne_panic ?_ ?_))
  · split
    · exact bind_ne_panic (toUsize_ne_panic _) fun a _ =>
        bind_ne_panic (toUsize_ne_panic _) fun _ _ => by simp
    · simp
  · repeat' apply ite_ne_panic
    all_goals simp

theorem PrimitiveLogicalType.ofThrift_ne_panic (x : Thrift.LogicalType) :
    PrimitiveLogicalType.ofThrift x ≠ .panic := by
  unfold PrimitiveLogicalType.ofThrift
  split
  all_goals first | (simp; done) | skip
  exact bind_ne_panic (toUsize_ne_panic _) fun a _ =>
    bind_ne_panic (toUsize_ne_panic _) fun _ _ => by simp

theorem GroupConvertedType.ofThrift_ne_panic (x : I32) : GroupConvertedType.ofThrift x ≠ .panic := by
  unfold GroupConvertedType.ofThrift; repeat' split
  all_goals simp

theorem GroupLogicalType.ofThrift_ne_panic (x : Thrift.LogicalType) :
    GroupLogicalType.ofThrift x ≠ .panic := by
  unfold GroupLogicalType.ofThrift; split <;> simp

theorem transposeMap_ne_panic {α β : Type} (f : α → Res β) (hf : ∀ a, f a ≠ .panic)
    (o : Option α) : transposeMap f o ≠ .panic := by
  cases o with
  | none => simp [transposeMap]
  | some a => exact map'_ne_panic (hf a)

theorem maxPrecision_ne_panic (n : Nat) : maxPrecision n ≠ .panic := by
  unfold maxPrecision
  simp only
  repeat' split
  all_goals simp

theorem checkDecimal_ne_panic (t : PhysicalType) (p s : Nat) :
    checkDecimalInvariants t p s ≠ .panic := by
  unfold checkDecimalInvariants
  repeat' split
  all_goals first | (simp; done) | skip
  rename_i h
  exact absurd h (maxPrecision_ne_panic _)

theorem checkConverted_ne_panic (t : PhysicalType) (c : Option PrimitiveConvertedType) :
    checkConvertedInvariants t c ≠ .panic := by
  unfold checkConvertedInvariants
  repeat' split
  all_goals first | (simp; done) | exact checkDecimal_ne_panic _ _ _

theorem checkLogical_ne_panic (t : PhysicalType) (c : Option PrimitiveLogicalType) :
    checkLogicalInvariants t c ≠ .panic := by
  cases c with
  | none => simp [checkLogicalInvariants]
  | some l =>
    cases l with
    | decimal p s => exact checkDecimal_ne_panic t p s
    | integer i => cases i <;> cases t <;> simp [checkLogicalInvariants]
    | time u b =>
      cases u <;> cases t <;> simp [checkLogicalInvariants]
    | uuid =>
      cases t <;> simp only [checkLogicalInvariants] <;> first | (simp; done) | (split <;> simp)
    | _ => cases t <;> simp [checkLogicalInvariants]

theorem tryFromPrimitive_ne_panic (name : String) (t : PhysicalType) (r : Repetition)
    (c : Option PrimitiveConvertedType) (l : Option PrimitiveLogicalType) (id : Option I32) :
    ParquetType.tryFromPrimitive name t r c l id ≠ .panic := by
  unfold ParquetType.tryFromPrimitive
  exact bind_ne_panic (checkConverted_ne_panic _ _) fun _ _ =>
    bind_ne_panic (checkLogical_ne_panic _ _) fun _ _ => by simp

theorem maybeDecimal_ne_panic (p s : Option I32) : maybeDecimal p s ≠ .panic := by
  cases p <;> cases s <;> (unfold maybeDecimal; intro h; cases h)

theorem primitiveOfElement_ne_panic (e : Thrift.SchemaElement) : primitiveOfElement e ≠ .panic := by
  unfold primitiveOfElement
  refine bind_ne_panic (ofOption_ne_panic _ _) fun _ _ => ?_
  refine bind_ne_panic (Repetition.ofThrift_ne_panic _) fun _ _ => ?_
  refine bind_ne_panic (ofOption_ne_panic _ _) fun _ _ => ?_
  refine bind_ne_panic (transposeMap_ne_panic _ (fun c => ?_) _) fun _ _ => ?_
  · exact bind_ne_panic (maybeDecimal_ne_panic _ _) fun _ _ =>
      PrimitiveConvertedType.ofThrift_ne_panic _ _
  refine bind_ne_panic (transposeMap_ne_panic _ PrimitiveLogicalType.ofThrift_ne_panic _) fun _ _ => ?_
  refine bind_ne_panic (PhysicalType.ofThrift_ne_panic _ _) fun _ _ => ?_
  exact tryFromPrimitive_ne_panic _ _ _ _ _ _

theorem groupOfElement_ne_panic (e : Thrift.SchemaElement) (fs : List ParquetType) :
    groupOfElement e fs ≠ .panic := by
  unfold groupOfElement
  refine bind_ne_panic (ofOption_ne_panic _ _) fun _ _ => ?_
  refine bind_ne_panic (Repetition.ofThrift_ne_panic _) fun _ _ => ?_
  refine bind_ne_panic (transposeMap_ne_panic _ GroupConvertedType.ofThrift_ne_panic _) fun _ _ => ?_
  refine bind_ne_panic (transposeMap_ne_panic _ GroupLogicalType.ofThrift_ne_panic _) fun _ _ => ?_
  simp

theorem childrenLoop_spec {α : Type} (helper : Nat → Res (Nat × α)) (j : Nat)
    (h : ∀ i, j ≤ i → helper i ≠ .panic ∧ ∀ next t, helper i = .ok (next, t) → i < next)
    (n i : Nat) (hi : j ≤ i) :
    childrenLoop helper n i ≠ .panic ∧
      ∀ next ts, childrenLoop helper n i = .ok (next, ts) → i ≤ next := by
  induction n generalizing i with
  | zero =>
    refine ⟨by simp [childrenLoop], ?_⟩
    intro next ts heq
    simp only [childrenLoop, Res.ok.injEq, Prod.mk.injEq] at heq
    omega
  | succ n ih =>
    simp only [childrenLoop]
    constructor
    · refine bind_ne_panic (h i hi).1 fun a ha => ?_
      have hlt := (h i hi).2 a.1 a.2 ha
      exact bind_ne_panic (ih a.1 (by omega)).1 fun _ _ => by simp
    · intro next ts heq
      obtain ⟨a, ha, heq⟩ := Res.bind_eq_ok.1 heq
      obtain ⟨b, hb, heq⟩ := Res.bind_eq_ok.1 heq
      have h1 := (h i hi).2 a.1 a.2 ha
      have h2 := (ih a.1 (by omega)).2 b.1 b.2 hb
      simp only [Res.ok.injEq, Prod.mk.injEq] at heq
      omega

theorem helper_spec (elements : List Thrift.SchemaElement) : ∀ fuel index,
    elements.length < fuel + index → index ≤ elements.length →
      fromThriftHelper elements fuel index ≠ .panic ∧
        ∀ next t, fromThriftHelper elements fuel index = .ok (next, t) → index < next := by
  intro fuel
  induction fuel with
  | zero => intro index h1 h2; omega
  | succ fuel ih =>
    intro index h1 h2
    unfold fromThriftHelper
    cases he : elements[index]? with
    | none => simp
    | some e =>
      have hlt : index < elements.length := by
        by_contra hc
        rw [List.getElem?_eq_none (by omega)] at he
        simp at he
      have hprim : (Res.map' (fun t => (index + 1, t)) (primitiveOfElement e)) ≠ .panic ∧
          ∀ next t, Res.map' (fun t => (index + 1, t)) (primitiveOfElement e) = .ok (next, t) →
            index < next := by
        refine ⟨map'_ne_panic (primitiveOfElement_ne_panic e), ?_⟩
        intro next t heq
        cases hp : primitiveOfElement e <;> rw [hp] at heq <;> simp [Res.map'] at heq
        omega
      have hloop := childrenLoop_spec (fromThriftHelper elements fuel) (index + 1)
        (by
          intro i hi
          by_cases hle : i ≤ elements.length
          · exact ih i (by omega) hle
          · have hnone : elements[i]? = none := List.getElem?_eq_none (by omega)
            cases fuel with
            | zero => omega
            | succ fuel => unfold fromThriftHelper; rw [hnone]; simp)
      cases hn : e.numChildren with
      | none => simpa only [hn] using hprim
      | some n =>
        simp only [hn]
        split
        · exact hprim
        · obtain ⟨l1, l2⟩ := hloop n.toInt.toNat (index + 1) (Nat.le_refl _)
          cases hc : childrenLoop (fromThriftHelper elements fuel) n.toInt.toNat (index + 1) with
          | err e => simp
          | panic => exact absurd hc l1
          | ok r =>
            obtain ⟨next, fields⟩ := r
            have := l2 next fields hc
            simp only
            split
            · refine ⟨by simp, ?_⟩
              intro next' t heq
              simp only [Res.ok.injEq, Prod.mk.injEq] at heq
              omega
            · refine ⟨map'_ne_panic (groupOfElement_ne_panic _ _), ?_⟩
              intro next' t heq
              cases hp : groupOfElement e fields <;> rw [hp] at heq <;> simp [Res.map'] at heq
              omega

theorem topLevel_ne_panic (elements : List Thrift.SchemaElement) (fuel index : Nat)
    (hf : elements.length - index < fuel) : topLevel elements fuel index ≠ .panic := by
  induction fuel generalizing index with
  | zero => omega
  | succ fuel ih =>
    unfold topLevel
    split
    · have h := helper_spec elements (elements.length + 1) index (by omega) (by omega)
      refine bind_ne_panic h.1 fun a ha => ?_
      have := h.2 a.1 a.2 ha
      exact bind_ne_panic (ih a.1 (by omega)) fun _ _ => by simp
    · simp

end Pq
