import Verif.Spec.Pruning
import Verif.Lemmas.ClientFile
import Verif.Lemmas.Indexes
import Verif.Lemmas.HybridRle2
import Verif.Props.Intervals
import Verif.Lemmas.WriterRanges
import Verif.Props.Statistics
/-
Statistics of arrays: page by page, merged, and in the column index.
-/
namespace Pq.Client
open Pq.Spec

/-! ### Extrema -/

theorem fold_extremum {α β : Type} (le : β → β → Prop) (htrans : ∀ x y z, le x y → le y z → le x z) (pick : α → α → α)
    (f : α → β) (S : α → Prop) (hrefl : ∀ y, S y → le (f y) (f y))
    (hpick : ∀ a b, S a → S b → (pick a b = a ∨ pick a b = b) ∧ le (f (pick a b)) (f a) ∧ le (f (pick a b)) (f b))
    (xs : List α) : ∀ x, S x → (∀ y ∈ xs, S y) →
      (xs.foldl pick x) ∈ x :: xs ∧ ∀ y ∈ x :: xs, le (f (xs.foldl pick x)) (f y) := by
  induction xs with
  | nil =>
    intro x hx _
    refine ⟨by simp, fun y hy => ?_⟩
    rw [List.mem_singleton] at hy
    subst hy
    exact hrefl y hx
  | cons z xs ih =>
    intro x hx hxs
    have hz := hxs z (by simp)
    obtain ⟨h1, h2, h3⟩ := hpick x z hx hz
    have hS : S (pick x z) := by rcases h1 with h | h <;> rw [h] <;> assumption
    obtain ⟨i1, i2⟩ := ih (pick x z) hS fun y hy => hxs y (List.mem_cons_of_mem _ hy)
    rw [List.foldl_cons]
    refine ⟨?_, fun y hy => ?_⟩
    · rcases List.mem_cons.1 i1 with h | h
      · rw [h]; rcases h1 with h | h <;> rw [h] <;> simp
      · exact List.mem_cons_of_mem _ (List.mem_cons_of_mem _ h)
    · have h0 := i2 (pick x z) (by simp)
      rcases List.mem_cons.1 hy with rfl | hy
      · exact htrans _ _ _ h0 h2
      · rcases List.mem_cons.1 hy with rfl | hy
        · exact htrans _ _ _ h0 h3
        · exact i2 y (List.mem_cons_of_mem _ hy)

theorem minBy_extremum {α β : Type} (le : β → β → Prop) (htrans : ∀ x y z, le x y → le y z → le x z)
    (cmp : α → α → Ordering) (f : α → β) (xs : List α) (hrefl : ∀ y ∈ xs, le (f y) (f y))
    (hgt : ∀ a ∈ xs, ∀ b ∈ xs, cmp a b = .gt → le (f b) (f a))
    (hle : ∀ a ∈ xs, ∀ b ∈ xs, cmp a b ≠ .gt → le (f a) (f b)) :
    Extremum le (xs.map fun x => some (f x)) ((minBy cmp xs).map f) := by
  cases xs with
  | nil => intro x hx; cases hx
  | cons x xs =>
    obtain ⟨h1, h2⟩ := fold_extremum le htrans (fun a b => match cmp a b with | .gt => b | _ => a) f (· ∈ x :: xs)
      hrefl (by
        intro a b ha hb
        cases hc : cmp a b with
        | gt => exact ⟨.inr rfl, hgt a ha b hb hc, hrefl b hb⟩
        | lt => exact ⟨.inl rfl, hrefl a ha, hle a ha b hb (by rw [hc]; decide)⟩
        | eq => exact ⟨.inl rfl, hrefl a ha, hle a ha b hb (by rw [hc]; decide)⟩)
      xs x (by simp) (fun y hy => List.mem_cons_of_mem _ hy)
    refine ⟨List.mem_map.2 ⟨_, h1, rfl⟩, fun y hy => ?_⟩
    obtain ⟨z, hz, he⟩ := List.mem_map.1 hy
    injection he with he
    rw [← he]
    exact h2 z hz

theorem maxBy_extremum {α β : Type} (le : β → β → Prop) (htrans : ∀ x y z, le x y → le y z → le x z)
    (cmp : α → α → Ordering) (f : α → β) (xs : List α) (hrefl : ∀ y ∈ xs, le (f y) (f y))
    (hgt : ∀ a ∈ xs, ∀ b ∈ xs, cmp a b = .gt → le (f a) (f b))
    (hle : ∀ a ∈ xs, ∀ b ∈ xs, cmp a b ≠ .gt → le (f b) (f a)) :
    Extremum le (xs.map fun x => some (f x)) ((maxBy cmp xs).map f) := by
  cases xs with
  | nil => intro x hx; cases hx
  | cons x xs =>
    obtain ⟨h1, h2⟩ := fold_extremum le htrans (fun a b => match cmp a b with | .gt => a | _ => b) f (· ∈ x :: xs)
      hrefl (by
        intro a b ha hb
        cases hc : cmp a b with
        | gt => exact ⟨.inl rfl, hrefl a ha, hgt a ha b hb hc⟩
        | lt => exact ⟨.inr rfl, hle a ha b hb (by rw [hc]; decide), hrefl b hb⟩
        | eq => exact ⟨.inr rfl, hle a ha b hb (by rw [hc]; decide), hrefl b hb⟩)
      xs x (by simp) (fun y hy => List.mem_cons_of_mem _ hy)
    refine ⟨List.mem_map.2 ⟨_, h1, rfl⟩, fun y hy => ?_⟩
    obtain ⟨z, hz, he⟩ := List.mem_map.1 hy
    injection he with he
    rw [← he]
    exact h2 z hz

theorem extremum_flat {α : Type} (le : α → α → Prop) (htrans : ∀ x y z, le x y → le y z → le x z)
    {pages : List (List α)} {rs : List (Option α)}
    (h : List.Forall₂ (fun xs r => Extremum le (xs.map some) r) pages rs) {m : Option α} (hm : Extremum le rs m) :
    Extremum le (pages.flatten.map some) m := by
  cases m with
  | none =>
    intro x hx
    obtain ⟨y, hy, rfl⟩ := List.mem_map.1 hx
    obtain ⟨xs, hxs, hy⟩ := List.mem_flatten.1 hy
    obtain ⟨r, hr, he⟩ := forall₂_left h hxs
    have hrn : r = none := hm r hr
    subst hrn
    exact he (some y) (List.mem_map.2 ⟨y, hy, rfl⟩)
  | some y =>
    obtain ⟨h1, h2⟩ := hm
    constructor
    · obtain ⟨xs, hxs, he⟩ := Client.forall₂_right h h1
      obtain ⟨z, hz, hzy⟩ := List.mem_map.1 he.1
      exact List.mem_map.2 ⟨z, List.mem_flatten.2 ⟨xs, hxs, hz⟩, hzy⟩
    · intro x hx
      obtain ⟨z, hz, hzx⟩ := List.mem_map.1 hx
      injection hzx with hzx
      subst hzx
      obtain ⟨xs, hxs, hy⟩ := List.mem_flatten.1 hz
      obtain ⟨r, hr, he⟩ := forall₂_left h hxs
      cases r with
      | none => have := he (some z) (List.mem_map.2 ⟨z, hy, rfl⟩); cases this
      | some r => exact htrans _ _ _ (h2 r hr) (he.2 z (List.mem_map.2 ⟨z, hy, rfl⟩))

/-! ### Statistics of an array -/

theorem count_nulls {α : Type} (xs : List (Option α)) :
    xs.length - (xs.filterMap id).length = (xs.map Option.isSome).count false ∧
      (xs.map Option.isSome).count false ≤ xs.length := by
  induction xs with
  | nil => exact ⟨rfl, Nat.le_refl _⟩
  | cons o xs ih =>
    cases o with
    | none =>
      have := List.length_filterMap_le id xs
      simp only [List.length_cons, List.filterMap_cons_none (f := id) rfl, List.map_cons, Option.isSome_none,
        List.count_cons_self]
      omega
    | some x =>
      simp only [List.length_cons, List.filterMap_cons_some (f := id) rfl, List.map_cons, Option.isSome_some]
      rw [List.count_cons_of_ne (by decide)]
      omega

theorem nullCount_toInt {α : Type} (xs : List (Option α)) (h : xs.length < 2 ^ 31) :
    (BitVec.ofNat 64 (xs.length - (xs.filterMap id).length)).toInt = ((xs.map Option.isSome).count false : Nat) := by
  obtain ⟨h1, h2⟩ := count_nulls xs
  rw [h1, BitVec.toInt_eq_toNat_of_lt (by rw [BitVec.toNat_ofNat]; omega), BitVec.toNat_ofNat]
  omega

/-- Bounds by a comparison that is right about numbers. -/
theorem number_bounds {α : Type} (cmp : α → α → Ordering) (val : α → Option Int) (xs : List α)
    (hc : ∀ x y a b, val x = some a → val y = some b → (cmp x y = .gt ↔ b < a))
    (hn : ∀ v ∈ xs.map val, v ≠ none) :
    Extremum numLe ((xs.map val).map some) ((minBy cmp xs).map val) ∧
    Extremum numGe ((xs.map val).map some) ((maxBy cmp xs).map val) := by
  have hv : ∀ x ∈ xs, ∃ a, val x = some a := fun x hx =>
    Option.ne_none_iff_exists'.1 (hn _ (List.mem_map.2 ⟨x, hx, rfl⟩))
  have hrefl : ∀ x ∈ xs, numLe (val x) (val x) := by
    intro x hx
    obtain ⟨a, ha⟩ := hv x hx
    rw [ha]
    exact numLe_refl a
  have hgt : ∀ x ∈ xs, ∀ y ∈ xs, cmp x y = .gt → numLe (val y) (val x) := by
    intro x hx y hy h
    obtain ⟨a, ha⟩ := hv x hx
    obtain ⟨b, hb⟩ := hv y hy
    have := (hc x y a b ha hb).1 h
    exact ⟨b, a, hb, ha, by omega⟩
  have hle : ∀ x ∈ xs, ∀ y ∈ xs, cmp x y ≠ .gt → numLe (val x) (val y) := by
    intro x hx y hy h
    obtain ⟨a, ha⟩ := hv x hx
    obtain ⟨b, hb⟩ := hv y hy
    exact ⟨a, b, ha, hb, Int.not_lt.1 fun hlt => h ((hc x y a b ha hb).2 hlt)⟩
  rw [List.map_map]
  exact ⟨minBy_extremum numLe numLe_trans cmp val xs hrefl hgt hle,
    maxBy_extremum numGe numGe_trans cmp val xs hrefl hgt hle⟩

theorem intOrd_gt {w : Nat} (x y : BitVec w) (a b : Int) (hx : (some ∘ BitVec.toInt) x = some a)
    (hy : (some ∘ BitVec.toInt) y = some b) : intOrd x y = .gt ↔ b < a := by
  simp only [Function.comp_apply, Option.some.injEq] at hx hy
  unfold intOrd
  rw [hx, hy]
  exact compare_gt_iff_gt

theorem floatOrd_gt (e m : Nat) (x y : BitVec (1 + e + m)) (a b : Int) (hx : floatVal e m x = some a)
    (hy : floatVal e m y = some b) : floatOrd e m x y = .gt ↔ b < a := by
  unfold floatOrd
  rw [floatGt_val e m x y a b hx hy, floatGt_val e m y x b a hy hx]
  by_cases h : b < a
  · simp [h]
  · by_cases h' : a < b <;> simp [h, h']

theorem lexCompare_le (a b : List Byte) : (Props.lexCompare a b = .gt → lexLe b a) ∧ (Props.lexCompare a b ≠ .gt → lexLe a b) := by
  induction a generalizing b with
  | nil => cases b <;> simp [Props.lexCompare, lexLe]
  | cons x a ih =>
    cases b with
    | nil => simp [Props.lexCompare, lexLe]
    | cons y b =>
      have hxy : ∀ x y : Byte, x.toNat = y.toNat → x = y := fun x y h => BitVec.eq_of_toNat_eq h
      simp only [Props.lexCompare, lexLe]
      by_cases h1 : x.toNat < y.toNat
      · rw [if_pos h1]; simp [h1]
      · rw [if_neg h1]
        by_cases h2 : y.toNat < x.toNat
        · rw [if_pos h2]; simp [h2]
        · rw [if_neg h2]
          have he := hxy x y (by omega)
          subst he
          exact ⟨fun h => .inr ⟨rfl, (ih b).1 h⟩, fun h => .inr ⟨rfl, (ih b).2 h⟩⟩

theorem string_bounds (xs : List (List Byte)) (hp : ∀ a ∈ xs, ∀ b ∈ xs, a <+: b → a = b) :
    Extremum lexLe (xs.map some) (minBy ordBinary xs) ∧
    Extremum (fun a b => lexLe b a) (xs.map some) (maxBy ordBinary xs) := by
  have key : ∀ a ∈ xs, ∀ b ∈ xs, (ordBinary a b = .gt → lexLe b a) ∧ (ordBinary a b ≠ .gt → lexLe a b) := by
    intro a ha b hb
    rw [Props.C30_lex_partial]
    by_cases h : a ≠ [] ∧ b ≠ [] ∧ (a <+: b ∨ b <+: a)
    · rw [if_pos h]
      have : a = b := by
        rcases h.2.2 with h | h
        · exact hp a ha b hb h
        · exact (hp b hb a ha h).symm
      subst this
      exact ⟨fun h => (by cases h), fun _ => lexLe_refl a⟩
    · rw [if_neg h]
      exact lexCompare_le a b
  have h1 := minBy_extremum lexLe lexLe_trans ordBinary id xs (fun y _ => lexLe_refl y)
    (fun a ha b hb => (key a ha b hb).1) (fun a ha b hb => (key a ha b hb).2)
  have h2 := maxBy_extremum (fun a b => lexLe b a) (fun x y z h1 h2 => lexLe_trans z y x h2 h1) ordBinary id xs
    (fun y _ => lexLe_refl y) (fun a ha b hb => (key a ha b hb).1) (fun a ha b hb => (key a ha b hb).2)
  rw [Option.map_id] at h1 h2
  exact ⟨h1, h2⟩

theorem extremum_nil {α : Type} (le : α → α → Prop) : Extremum le ([] : List (Option α)) none := by
  intro x hx; cases hx

/-- The statistics that the client makes of an array. -/
theorem arrayToPage_statistics (array : Array) (options : WriteOptions) (d : Descriptor) (page : Page)
    (h : arrayToPage array options d = .ok page) (hs : options.writeStatistics = true)
    (ht : HasType array d.primitiveType.physicalType) (hn : array.len < 2 ^ 31) :
    ∃ p hd v s, page = .data p ∧ p.descriptor = d ∧ p.header = .v1 hd ∧ hd.statistics = some v ∧
      serializeStatistics s = .ok v ∧ OfType s d.primitiveType ∧ Summarises [array] s := by
  have key : ∀ {α : Type} (toLe : α → List Byte) (ord : α → α → Ordering)
      (st : Option I64 → Option α → Option α → Statistics) (xs : List (Option α)),
      arrayToPageV1 toLe ord st xs options d = .ok page →
      ∃ p hd v, page = .data p ∧ p.descriptor = d ∧ p.header = .v1 hd ∧ hd.statistics = some v ∧
        serializeStatistics (st (some (BitVec.ofNat 64 (xs.length - (xs.filterMap id).length)))
          (maxBy ord (xs.filterMap id)) (minBy ord (xs.filterMap id))) = .ok v := by
    intro α toLe ord st xs h
    obtain ⟨lv, s, -, rfl, h3⟩ := arrayToPageV1_ok _ _ _ _ _ _ _ h
    simp only [arrayStatistics, hs, if_true] at h3
    obtain ⟨v, hv, he⟩ := map'_ok _ _ _ h3
    exact ⟨_, _, v, rfl, rfl, rfl, he.symm, hv⟩
  cases array with
  | int32 xs =>
    have ht' : d.primitiveType.physicalType = .int32 := by
      revert ht; cases d.primitiveType.physicalType <;> simp [HasType]
    obtain ⟨p, hd, v, h1, h2, h3, h4, h5⟩ := key _ _ _ _ h
    refine ⟨p, hd, v, _, h1, h2, h3, h4, h5, ⟨rfl, ht'⟩, ⟨?_, ?_, ?_⟩⟩
    · simp only [Statistics.nullCount, primitiveStatistics, Option.map_some, nullCount_toInt xs hn]; simp [arrayNulls, arrayBits]
    · intro hv
      simp only [List.flatMap_cons, List.flatMap_nil, List.append_nil, arrayNumbers] at hv ⊢
      exact number_bounds intOrd _ _ intOrd_gt hv
    · intro _; exact ⟨extremum_nil _, extremum_nil _⟩
  | int64 xs =>
    have ht' : d.primitiveType.physicalType = .int64 := by
      revert ht; cases d.primitiveType.physicalType <;> simp [HasType]
    obtain ⟨p, hd, v, h1, h2, h3, h4, h5⟩ := key _ _ _ _ h
    refine ⟨p, hd, v, _, h1, h2, h3, h4, h5, ⟨rfl, ht'⟩, ⟨?_, ?_, ?_⟩⟩
    · simp only [Statistics.nullCount, primitiveStatistics, Option.map_some, nullCount_toInt xs hn]; simp [arrayNulls, arrayBits]
    · intro hv
      simp only [List.flatMap_cons, List.flatMap_nil, List.append_nil, arrayNumbers] at hv ⊢
      exact number_bounds intOrd _ _ intOrd_gt hv
    · intro _; exact ⟨extremum_nil _, extremum_nil _⟩
  | int96 xs =>
    have ht' : d.primitiveType.physicalType = .int96 := by
      revert ht; cases d.primitiveType.physicalType <;> simp [HasType]
    obtain ⟨p, hd, v, h1, h2, h3, h4, h5⟩ := key _ _ _ _ h
    refine ⟨p, hd, v, _, h1, h2, h3, h4, h5, ⟨rfl, ht'⟩, ⟨?_, ?_, ?_⟩⟩
    · simp only [Statistics.nullCount, primitiveStatistics, Option.map_some, nullCount_toInt xs hn]; simp [arrayNulls, arrayBits]
    · intro _; exact ⟨extremum_nil _, extremum_nil _⟩
    · intro _; exact ⟨extremum_nil _, extremum_nil _⟩
  | float xs =>
    have ht' : d.primitiveType.physicalType = .float := by
      revert ht; cases d.primitiveType.physicalType <;> simp [HasType]
    obtain ⟨p, hd, v, h1, h2, h3, h4, h5⟩ := key _ _ _ _ h
    refine ⟨p, hd, v, _, h1, h2, h3, h4, h5, ⟨rfl, ht'⟩, ⟨?_, ?_, ?_⟩⟩
    · simp only [Statistics.nullCount, primitiveStatistics, Option.map_some, nullCount_toInt xs hn]; simp [arrayNulls, arrayBits]
    · intro hv
      simp only [List.flatMap_cons, List.flatMap_nil, List.append_nil, arrayNumbers] at hv ⊢
      exact number_bounds (floatOrd 8 23) _ _ (floatOrd_gt 8 23) hv
    · intro _; exact ⟨extremum_nil _, extremum_nil _⟩
  | double xs =>
    have ht' : d.primitiveType.physicalType = .double := by
      revert ht; cases d.primitiveType.physicalType <;> simp [HasType]
    obtain ⟨p, hd, v, h1, h2, h3, h4, h5⟩ := key _ _ _ _ h
    refine ⟨p, hd, v, _, h1, h2, h3, h4, h5, ⟨rfl, ht'⟩, ⟨?_, ?_, ?_⟩⟩
    · simp only [Statistics.nullCount, primitiveStatistics, Option.map_some, nullCount_toInt xs hn]; simp [arrayNulls, arrayBits]
    · intro hv
      simp only [List.flatMap_cons, List.flatMap_nil, List.append_nil, arrayNumbers] at hv ⊢
      exact number_bounds (floatOrd 11 52) _ _ (floatOrd_gt 11 52) hv
    · intro _; exact ⟨extremum_nil _, extremum_nil _⟩
  | binary xs =>
    have ht' : d.primitiveType.physicalType = .byteArray := by
      revert ht; cases d.primitiveType.physicalType <;> simp [HasType]
    obtain ⟨p, hd, v, h1, h2, h3, h4, h5⟩ := key _ _ _ _ h
    refine ⟨p, hd, v, _, h1, h2, h3, h4, h5, ⟨rfl, ht'⟩, ⟨?_, ?_, ?_⟩⟩
    · simp only [Statistics.nullCount, Option.map_some, nullCount_toInt xs hn]; simp [arrayNulls, arrayBits]
    · intro _; exact ⟨extremum_nil _, extremum_nil _⟩
    · intro hp
      simp only [List.flatMap_cons, List.flatMap_nil, List.append_nil, arrayStrings] at hp ⊢
      exact string_bounds _ hp
  | boolean xs => simp [arrayToPage] at h
  | fixedLenBinary xs => simp [arrayToPage] at h

theorem fold_mem {α : Type} (f : α → α → α) (hf : ∀ a b, f a b = a ∨ f a b = b) (x : α) (xs : List α) :
    xs.foldl f x ∈ x :: xs := by
  induction xs generalizing x with
  | nil => simp
  | cons y xs ih =>
    have := ih (f x y)
    rw [List.foldl_cons]
    rcases hf x y with h | h <;> rw [h] at this ⊢ <;>
      rcases List.mem_cons.1 this with h | h <;> simp [h]

theorem maxBy_mem {α : Type} (cmp : α → α → Ordering) (xs : List α) :
    (∀ x, maxBy cmp xs = some x → x ∈ xs) ∧ ((maxBy cmp xs).isSome ↔ xs ≠ []) := by
  cases xs with
  | nil => simp [maxBy]
  | cons y ys =>
    refine ⟨fun x h => ?_, by simp [maxBy]⟩
    have := fold_mem (fun a b => match cmp a b with | .gt => a | _ => b) (fun a b => by split <;> simp) y ys
    simp only [maxBy, Option.some.injEq] at h
    rw [← h]
    exact this

theorem minBy_mem {α : Type} (cmp : α → α → Ordering) (xs : List α) :
    (∀ x, minBy cmp xs = some x → x ∈ xs) ∧ ((minBy cmp xs).isSome ↔ xs ≠ []) := by
  cases xs with
  | nil => simp [minBy]
  | cons y ys =>
    refine ⟨fun x h => ?_, by simp [minBy]⟩
    have := fold_mem (fun a b => match cmp a b with | .gt => b | _ => a) (fun a b => by split <;> simp) y ys
    simp only [minBy, Option.some.injEq] at h
    rw [← h]
    exact this

/-- The bounds in the statistics that the client makes of an array are items of the array. -/
theorem arrayToPage_items (array : Array) (options : WriteOptions) (d : Descriptor) (page : Page)
    (h : arrayToPage array options d = .ok page) (hs : options.writeStatistics = true) :
    ∃ p hd v, page = .data p ∧ p.header = .v1 hd ∧ hd.statistics = some v ∧ v.distinctCount = none ∧
      (∀ b, v.minValue = some b ∨ v.maxValue = some b → some b ∈ arrayItems array) ∧
      (v.minValue.isSome ↔ ∃ b, some b ∈ arrayItems array) ∧ (v.maxValue.isSome ↔ ∃ b, some b ∈ arrayItems array) ∧
      v.min = none ∧ v.max = none := by
  have key : ∀ {α : Type} (toLe : α → List Byte) (ord : α → α → Ordering)
      (st : Option I64 → Option α → Option α → Statistics) (xs : List (Option α)) (item : α → List Byte),
      arrayToPageV1 toLe ord st xs options d = .ok page →
      (∀ n max min, ∃ v, serializeStatistics (st n max min) = .ok v ∧ v.distinctCount = none ∧
        v.minValue = min.map item ∧ v.maxValue = max.map item ∧ v.min = none ∧ v.max = none) →
      ∃ p hd v, page = .data p ∧ p.header = .v1 hd ∧ hd.statistics = some v ∧ v.distinctCount = none ∧
        (∀ b, v.minValue = some b ∨ v.maxValue = some b → some b ∈ xs.map (Option.map item)) ∧
        (v.minValue.isSome ↔ ∃ b, some b ∈ xs.map (Option.map item)) ∧
        (v.maxValue.isSome ↔ ∃ b, some b ∈ xs.map (Option.map item)) ∧ v.min = none ∧ v.max = none := by
    intro α toLe ord st xs item h hst
    obtain ⟨lv, s, -, rfl, h3⟩ := arrayToPageV1_ok _ _ _ _ _ _ _ h
    simp only [arrayStatistics, hs, if_true] at h3
    obtain ⟨v, hv, he⟩ := map'_ok _ _ _ h3
    obtain ⟨v', hv', e1, e2, e3, e4, e5⟩ := hst (some (BitVec.ofNat 64 (xs.length - (xs.filterMap id).length)))
      (maxBy ord (xs.filterMap id)) (minBy ord (xs.filterMap id))
    rw [hv] at hv'
    injection hv' with hv'
    subst hv'
    have hmem : ∀ x ∈ xs.filterMap id, some (item x) ∈ xs.map (Option.map item) := by
      intro x hx
      obtain ⟨y, hy, hyx⟩ := List.mem_filterMap.1 hx
      exact List.mem_map.2 ⟨y, hy, by rw [show y = some x from hyx]; rfl⟩
    have hne : xs.filterMap id ≠ [] ↔ ∃ b, some b ∈ xs.map (Option.map item) := by
      constructor
      · intro h
        obtain ⟨x, hx⟩ := List.exists_mem_of_ne_nil _ h
        exact ⟨_, hmem x hx⟩
      · rintro ⟨b, hb⟩ h
        obtain ⟨y, hy, hyb⟩ := List.mem_map.1 hb
        obtain ⟨x, rfl, -⟩ := Option.map_eq_some_iff.1 hyb
        have : x ∈ xs.filterMap id := List.mem_filterMap.2 ⟨some x, hy, rfl⟩
        rw [h] at this
        cases this
    refine ⟨_, _, v, rfl, rfl, he.symm, e1, ?_, ?_, ?_, e4, e5⟩
    · intro b hb
      rw [e2, e3] at hb
      rcases hb with hb | hb
      · obtain ⟨x, hx, rfl⟩ := Option.map_eq_some_iff.1 hb
        exact hmem x ((minBy_mem ord _).1 x hx)
      · obtain ⟨x, hx, rfl⟩ := Option.map_eq_some_iff.1 hb
        exact hmem x ((maxBy_mem ord _).1 x hx)
    · rw [e2, Option.isSome_map, (minBy_mem ord _).2, hne]
    · rw [e3, Option.isSome_map, (maxBy_mem ord _).2, hne]
  have hle : ∀ (b : Nat) (x : BitVec (8 * b)), nativeToLe b x = leBytes b x.toNat := nativeToLe_eq
  cases array with
  | int32 xs =>
    exact key _ _ _ _ _ h fun n max min => ⟨_, rfl, rfl, by simp only [primitiveWrite, primitiveStatistics]; exact congrArg (Option.map · min) (funext (hle 4)), by
      simp only [primitiveWrite, primitiveStatistics]; exact congrArg (Option.map · max) (funext (hle 4)), rfl, rfl⟩
  | int64 xs =>
    exact key _ _ _ _ _ h fun n max min => ⟨_, rfl, rfl, by simp only [primitiveWrite, primitiveStatistics]; exact congrArg (Option.map · min) (funext (hle 8)), by
      simp only [primitiveWrite, primitiveStatistics]; exact congrArg (Option.map · max) (funext (hle 8)), rfl, rfl⟩
  | float xs =>
    exact key _ _ _ _ _ h fun n max min => ⟨_, rfl, rfl, by simp only [primitiveWrite, primitiveStatistics]; exact congrArg (Option.map · min) (funext (hle 4)), by
      simp only [primitiveWrite, primitiveStatistics]; exact congrArg (Option.map · max) (funext (hle 4)), rfl, rfl⟩
  | double xs =>
    exact key _ _ _ _ _ h fun n max min => ⟨_, rfl, rfl, by simp only [primitiveWrite, primitiveStatistics]; exact congrArg (Option.map · min) (funext (hle 8)), by
      simp only [primitiveWrite, primitiveStatistics]; exact congrArg (Option.map · max) (funext (hle 8)), rfl, rfl⟩
  | int96 xs =>
    have hx : ∀ x : BitVec (8 * 12), int96ToLe (int96Of x) = leBytes 12 x.toNat := fun x => by
      rw [int96Of, Deser.int96_to_from _ (Deser.toLe_length 12 x)]
      exact nativeToLe_eq 12 x
    exact key _ _ _ _ _ h fun n max min => ⟨_, rfl, rfl, by
      simp only [primitiveWrite, primitiveStatistics, Option.map_map]
      exact congrArg (Option.map · min) (funext hx), by
      simp only [primitiveWrite, primitiveStatistics, Option.map_map]
      exact congrArg (Option.map · max) (funext hx), rfl, rfl⟩
  | binary xs =>
    have := key _ _ _ _ id h fun n max min => ⟨_, rfl, rfl, by simp only [binaryWrite, Option.map_id, id], by
      simp only [binaryWrite, Option.map_id, id], rfl, rfl⟩
    simpa only [arrayItems, Option.map_id, List.map_id] using this
  | boolean xs => simp [arrayToPage] at h
  | fixedLenBinary xs => simp [arrayToPage] at h

/-- The statistics of a page that the client makes of an array. -/
theorem pageOf_statistics {cs : Codecs} {ck : Bool} {options : WriteOptions} {opts : CompressionOptions}
    {d : Descriptor} {array : Array} {cp : CompressedPage} (hs : options.writeStatistics = true)
    (h : PageOf cs ck options opts d array cp) :
    ∃ v s, statisticsOf cp = some (v, d.primitiveType.physicalType) ∧ isData cp = true ∧
      serializeStatistics s = .ok v ∧
      OfType s d.primitiveType ∧ Summarises [array] s ∧ pageStats cp = some s := by
  obtain ⟨ht, hn, page, h1, -, h3⟩ := h
  obtain ⟨p, hd, v, s, rfl, h4, h5, h6, h7, h8, h9⟩ := arrayToPage_statistics array options d page h1 hs ht hn
  obtain ⟨cd, hcd, rfl⟩ := map'_ok _ _ _ h3
  have hcd' : cd.header = .v1 hd ∧ cd.descriptor = d := by
    unfold compressData at hcd
    by_cases ho : opts ≠ .uncompressed
    · rw [if_pos ho] at hcd
      simp only [h5] at hcd
      obtain ⟨b, -, h8⟩ := Res.bind_eq_ok.1 hcd
      injection h8 with h8
      rw [← h8]
      exact ⟨by first | rfl | exact h5, h4⟩
    · rw [if_neg ho] at hcd
      simp only [Res.ok_bind, Res.ok.injEq] at hcd
      rw [← hcd]
      exact ⟨h5, h4⟩
  refine ⟨v, s, ?_, rfl, h7, h8, h9, ?_⟩
  · simp only [statisticsOf, hcd'.1, hcd'.2, h6, Option.map_some]
  · have hr := Props.C48_roundtrip s d.primitiveType h8
    rw [h7, Res.ok_bind] at hr
    simp only [pageStats, pageStatistics, hcd'.1, hcd'.2, h6, hr, Res.map']

/-! ### Merged statistics -/

theorem flatMap_flatten {α β : Type} (f : α → List β) (xs : List α) : xs.flatMap f = (xs.map f).flatten := rfl

theorem arrayNulls_le (a : Array) : arrayNulls a ≤ a.len := by
  cases a <;> exact Nat.le_trans List.count_le_length (by simp [arrayBits, Array.len])

theorem sumOf_exact (pages : List (Option Statistics)) (nulls : List Nat)
    (h : List.Forall₂ (fun n p => ∃ s, p = some s ∧ s.nullCount.map BitVec.toInt = some ((n : Nat) : Int)) nulls pages)
    (hne : pages ≠ []) (r : Option I64) (hlt : nulls.sum < 2 ^ 63)
    (hr : SumOf ((pages.filterMap id).map (·.nullCount)) r) :
    r.map BitVec.toInt = some (nulls.sum : Int) := by
  have hsum : ((((pages.filterMap id).map (·.nullCount)).filterMap id).map BitVec.toInt).sum = (nulls.sum : Int) := by
    clear hne hr hlt
    induction h with
    | nil => rfl
    | @cons n p ns ps h1 _ ih =>
      obtain ⟨s, rfl, h2⟩ := h1
      obtain ⟨c, hc, h3⟩ := Option.map_eq_some_iff.1 h2
      rw [List.filterMap_cons_some (f := id) rfl, List.map_cons, hc, List.filterMap_cons_some (f := id) rfl,
        List.map_cons, List.sum_cons, ih, h3, List.sum_cons]
      simp
  cases h with
  | nil => exact absurd rfl hne
  | @cons n p ns ps h1 h2 =>
    obtain ⟨s, rfl, h3⟩ := h1
    obtain ⟨c, hc, -⟩ := Option.map_eq_some_iff.1 h3
    have hin : some c ∈ ((some s :: ps).filterMap id).map (·.nullCount) :=
      List.mem_map.2 ⟨s, by simp, hc⟩
    cases r with
    | none => have := hr _ hin; cases this
    | some y =>
      obtain ⟨-, hy⟩ := hr
      rw [hsum] at hy
      rw [Option.map_some, hy, BitVec.toInt_ofInt]
      exact congrArg some (Int.bmod_eq_of_le (by omega) (by omega))

/-- The statistics merged from those of the pages. -/
theorem merged_summarises (arrays : List Array) (pages : List (Option Statistics))
    (h : List.Forall₂ (fun a p => ∃ s, p = some s ∧ Summarises [a] s) arrays pages) (hne : arrays ≠ [])
    (hlt : (arrays.map Array.len).sum < 2 ^ 63) (r : Option (Res Statistics)) (hr : StatisticsTell pages r) :
    ∃ s, r = some (.ok s) ∧ Summarises arrays s := by
  have hpn : pages ≠ [] := by
    intro e; subst e; cases h; exact hne rfl
  have hsome : ∀ s, some s ∈ pages → ∃ a ∈ arrays, Summarises [a] s := by
    intro s hs
    obtain ⟨a, ha, t, he, ht⟩ := forall₂_right h hs
    injection he with he
    subst he
    exact ⟨a, ha, ht⟩
  cases r with
  | none =>
    cases h with
    | nil => exact absurd rfl hne
    | cons h1 _ =>
      obtain ⟨s, rfl, -⟩ := h1
      have := hr _ (List.mem_cons_self)
      cases this
  | some r =>
    obtain ⟨s, rfl, -, -, h1, h2, h3⟩ := hr
    refine ⟨s, rfl, ⟨?_, ?_, ?_⟩⟩
    · refine sumOf_exact pages (arrays.map arrayNulls) ?_ hpn s.nullCount ?_ h1
      · refine List.forall₂_map_left_iff.2 (h.imp ?_)
        rintro a p ⟨s, rfl, hs⟩
        exact ⟨s, rfl, by simpa using hs.nulls⟩
      · refine Nat.lt_of_le_of_lt ?_ hlt
        clear h hne hlt hsome
        induction arrays with
        | nil => exact Nat.le_refl _
        | cons a as ih =>
          have := arrayNulls_le a
          simp only [List.map_cons, List.sum_cons]
          omega
    · intro hv
      have hnum : ∀ a ∈ arrays, ∀ v ∈ [a].flatMap arrayNumbers, v ≠ none := by
        intro a ha v hv'
        simp only [List.flatMap_cons, List.flatMap_nil, List.append_nil] at hv'
        exact hv v (List.mem_flatMap.2 ⟨a, ha, hv'⟩)
      have hmem : ∀ (le : Option Int → Option Int → Prop) (xs : List (Option Int)) (r : Option (Option Int)),
          Extremum le (xs.map some) r → (∀ v ∈ xs, v ≠ none) → r ≠ some none := by
        intro le xs r he hx hr
        subst hr
        obtain ⟨z, hz, hze⟩ := List.mem_map.1 he.1
        injection hze with hze
        subst hze
        exact hx none hz rfl
      obtain ⟨b1, b2⟩ := h2 (by
        intro t ht
        obtain ⟨a, ha, hs⟩ := hsome t ht
        obtain ⟨c1, c2⟩ := hs.numbers (hnum a ha)
        exact ⟨hmem _ _ _ c1 (hnum a ha), hmem _ _ _ c2 (hnum a ha)⟩)
      have hf : List.Forall₂ (fun xs (t : Statistics) => Extremum numLe (xs.map some) (numMin t) ∧
          Extremum numGe (xs.map some) (numMax t)) (arrays.map arrayNumbers) (pages.filterMap id) := by
        clear h1 h2 h3 b1 b2 hne hlt hsome hpn hv
        induction h with
        | nil => exact .nil
        | @cons a p as ps hap _ ih =>
          obtain ⟨t, rfl, ht⟩ := hap
          rw [List.filterMap_cons_some (f := id) rfl, List.map_cons]
          refine .cons ?_ (ih fun x hx => hnum x (List.mem_cons_of_mem _ hx))
          have := ht.numbers (hnum a (by simp))
          simpa using this
      exact ⟨extremum_flat numLe numLe_trans (List.forall₂_map_right_iff.2 (hf.imp fun _ _ h => h.1)) b1,
        extremum_flat numGe numGe_trans (List.forall₂_map_right_iff.2 (hf.imp fun _ _ h => h.2)) b2⟩
    · intro hp
      have hpre : ∀ a ∈ arrays, ∀ x ∈ [a].flatMap arrayStrings, ∀ y ∈ [a].flatMap arrayStrings, x <+: y → x = y := by
        intro a ha x hx y hy
        simp only [List.flatMap_cons, List.flatMap_nil, List.append_nil] at hx hy
        exact hp x (List.mem_flatMap.2 ⟨a, ha, hx⟩) y (List.mem_flatMap.2 ⟨a, ha, hy⟩)
      have hmem : ∀ (le : List Byte → List Byte → Prop) (a : Array) (x : List Byte), a ∈ arrays →
          Extremum le (([a].flatMap arrayStrings).map some) (some x) → x ∈ arrays.flatMap arrayStrings := by
        intro le a x ha he
        obtain ⟨z, hz, hze⟩ := List.mem_map.1 he.1
        injection hze with hze
        subst hze
        simp only [List.flatMap_cons, List.flatMap_nil, List.append_nil] at hz
        exact List.mem_flatMap.2 ⟨a, ha, hz⟩
      obtain ⟨b1, b2⟩ := h3 (by
        intro t u x y ht hu hx hy
        obtain ⟨a, ha, hs⟩ := hsome t ht
        obtain ⟨b, hb, hs'⟩ := hsome u hu
        have c1 := (hs.strings (hpre a ha)).1
        have c2 := (hs'.strings (hpre b hb)).1
        rw [hx] at c1
        rw [hy] at c2
        exact hp x (hmem _ a x ha c1) y (hmem _ b y hb c2)) (by
        intro t u x y ht hu hx hy
        obtain ⟨a, ha, hs⟩ := hsome t ht
        obtain ⟨b, hb, hs'⟩ := hsome u hu
        have c1 := (hs.strings (hpre a ha)).2
        have c2 := (hs'.strings (hpre b hb)).2
        rw [hx] at c1
        rw [hy] at c2
        exact hp x (hmem _ a x ha c1) y (hmem _ b y hb c2))
      have hf : List.Forall₂ (fun xs (t : Statistics) => Extremum lexLe (xs.map some) (bytesMin t) ∧
          Extremum (fun a b => lexLe b a) (xs.map some) (bytesMax t)) (arrays.map arrayStrings) (pages.filterMap id) := by
        clear h1 h2 h3 b1 b2 hne hlt hsome hpn hp hmem
        induction h with
        | nil => exact .nil
        | @cons a p as ps hap _ ih =>
          obtain ⟨t, rfl, ht⟩ := hap
          rw [List.filterMap_cons_some (f := id) rfl, List.map_cons]
          refine .cons ?_ (ih fun x hx => hpre x (List.mem_cons_of_mem _ hx))
          have := ht.strings (hpre a (by simp))
          simpa using this
      exact ⟨extremum_flat lexLe lexLe_trans (List.forall₂_map_right_iff.2 (hf.imp fun _ _ h => h.1)) b1,
        extremum_flat (fun a b => lexLe b a) (fun x y z h1 h2 => lexLe_trans z y x h2 h1)
          (List.forall₂_map_right_iff.2 (hf.imp fun _ _ h => h.2)) b2⟩

/-- The statistics of a column chunk that is read back. -/
theorem columnOf_statistics {cs : Codecs} {ck : Bool} {options : WriteOptions} {arrays : List Array}
    {c : ColumnDescriptor × List CompressedPage} (hs : options.writeStatistics = true)
    (h : ColumnOf cs ck options arrays c) (hne : arrays ≠ []) (hlt : (arrays.map Array.len).sum < 2 ^ 63)
    {r : Option (Res Statistics)} (hr : StatisticsTell (c.2.map pageStats) r) :
    ∃ s, r = some (.ok s) ∧ Summarises arrays s := by
  obtain ⟨opts, hp⟩ := h.pages
  refine merged_summarises arrays _ (List.forall₂_map_right_iff.2 (hp.imp ?_)) hne hlt r hr
  intro a cp hap
  obtain ⟨v, s, -, -, -, -, h1, h2⟩ := pageOf_statistics hs hap
  exact ⟨s, h2, h1⟩

/-! ### Column indexes -/

theorem leBytes_inj (k : Nat) (x y : BitVec (8 * k)) (h : leBytes k x.toNat = leBytes k y.toNat) : x = y := by
  rw [← nativeToLe_eq, ← nativeToLe_eq] at h
  have h1 := (Props.C29_native k x).2.1
  rw [h, (Props.C29_native k y).2.1] at h1
  injection h1 with h1
  exact h1.symm

theorem map_inj {α β : Type} (f : α → β) (hf : ∀ x y, f x = f y → x = y) (a b : Option α) (h : a.map f = b.map f) :
    a = b := by
  cases a <;> cases b <;> simp at h ⊢
  exact hf _ _ h

theorem summarises_of_bounds {arrays : List Array} {s e : Statistics} (h : Summarises arrays s)
    (hn : e.nullCount = s.nullCount)
    (hb : (numMin e = numMin s ∧ numMax e = numMax s ∧ bytesMin e = bytesMin s ∧ bytesMax e = bytesMax s) ∨
      (numMin s = none ∧ bytesMin s = none ∧ numMin e = none ∧ numMax e = none ∧ bytesMin e = none ∧
        bytesMax e = none)) : Summarises arrays e := by
  rcases hb with ⟨h1, h2, h3, h4⟩ | ⟨h1, h2, h3, h4, h5, h6⟩
  · exact ⟨by rw [hn]; exact h.nulls, by rw [h1, h2]; exact h.numbers, by rw [h3, h4]; exact h.strings⟩
  · refine ⟨by rw [hn]; exact h.nulls, fun hv => ?_, fun hv => ?_⟩
    · have := (h.numbers hv).1
      rw [h1] at this
      rw [h3, h4]
      exact ⟨this, this⟩
    · have := (h.strings hv).1
      rw [h2] at this
      rw [h5, h6]
      exact ⟨this, this⟩

theorem bounds_eq {α : Type} (plain : α → List Byte) (hp : ∀ x y, plain x = plain y → x = y)
    {m M em eM : Option α}
    (h : (∃ x y, m.map plain = some x ∧ M.map plain = some y ∧ em.map plain = some x ∧ eM.map plain = some y) ∨
      (m.map plain = none ∧ em.map plain = none ∧ eM.map plain = none)) :
    (em = m ∧ eM = M) ∨ (m = none ∧ em = none ∧ eM = none) := by
  rcases h with ⟨x, y, h1, h2, h3, h4⟩ | ⟨h1, h2, h3⟩
  · exact .inl ⟨map_inj plain hp _ _ (h3.trans h1.symm), map_inj plain hp _ _ (h4.trans h2.symm)⟩
  · exact .inr ⟨by simpa using h1, by simpa using h2, by simpa using h3⟩

/-- Entries of an index and the statistics written in the page headers. -/
theorem indexStats_of {α : Type} (plain : α → List Byte) (make : PageIndex α → Statistics) (t : PrimitiveType)
    (hstep : ∀ (a : Array) (v : Thrift.Statistics) (s : Statistics) (e : PageIndex α),
      serializeStatistics s = .ok v → OfType s t → Summarises [a] s → e.nullCount = v.nullCount →
      ((∃ x y, v.minValue = some x ∧ v.maxValue = some y ∧ e.min.map plain = some (boundOf t.physicalType x) ∧
          e.max.map plain = some (boundOf t.physicalType y)) ∨
        (v.minValue = none ∧ e.min.map plain = none ∧ e.max.map plain = none)) → Summarises [a] (make e)) :
    ∀ (xs : List (PageIndex α)) (arrays : List Array) (pages : List CompressedPage),
    List.Forall₂ (fun a cp => ∃ v s, statisticsOf cp = some (v, t.physicalType) ∧ serializeStatistics s = .ok v ∧
      OfType s t ∧ Summarises [a] s) arrays pages →
    List.Forall₂ PageBounds pages (xs.map (plainEntry plain)) →
    List.Forall₂ (fun a s => Summarises [a] s) arrays (xs.map make)
  | [], _, _, h1, h2 => by
    cases h2
    cases h1
    exact .nil
  | e :: xs, _, _, h1, h2 => by
    cases h2 with
    | cons h3 h4 =>
      cases h1 with
      | cons h5 h6 =>
        refine .cons ?_ (indexStats_of plain make t hstep xs _ _ h6 h4)
        obtain ⟨v, s, h7, h8, h9, h10⟩ := h5
        obtain ⟨v', t', h11, -, h12, h13⟩ := h3
        rw [h7] at h11
        injection h11 with h11
        injection h11 with h11 h14
        subst h11 h14
        exact hstep _ v s e h8 h9 h10 h12 h13

theorem int96Bytes_inj (x y : Int96) (h : int96Bytes x = int96Bytes y) : x = y := by
  have h1 := (Props.C29_int96 x).1
  have h2 := (Props.C29_int96 y).1
  have h3 : int96ToLe x = int96ToLe y := by rw [h1, h2]; exact h
  have h4 := (Props.C29_int96 x).2.1
  have h5 := (Props.C29_int96 y).2.1
  rw [h3, h5] at h4
  injection h4 with h4
  exact h4.symm

/-- Entries of an index and the statistics written in the page headers. -/
theorem indexStats_summarises (arrays : List Array) (pages : List CompressedPage) (index : Index) (t : PrimitiveType)
    (hty : index.physicalType = t.physicalType)
    (hfix : ∀ t xs o, index = .fixedLen t xs o → ∃ n, t.physicalType = .fixedLenByteArray n)
    (hp : List.Forall₂ (fun a cp => ∃ v s, statisticsOf cp = some (v, t.physicalType) ∧ serializeStatistics s = .ok v ∧
      OfType s t ∧ Summarises [a] s) arrays pages)
    (h : List.Forall₂ PageBounds pages (plainEntries index)) :
    List.Forall₂ (fun a s => Summarises [a] s) arrays (indexStats index) := by
  have native : ∀ (n : Nat) (m : Option (BitVec (8 * n))), m.map (nativeToLe n) = m.map fun x => leBytes n x.toNat := by
    intro n m
    cases m <;> simp [nativeToLe_eq]
  cases index with
  | boolean xs o =>
    refine indexStats_of _ _ t ?_ xs _ _ hp h
    intro a v s e h1 h2 h3 h4 h5
    have hty' : t.physicalType = .boolean := hty.symm
    cases s with
    | boolean s =>
      simp only [serializeStatistics, Res.ok.injEq] at h1
      subst h1
      refine summarises_of_bounds h3 h4 ?_
      have hb : ∀ b : Bool, boundOf t.physicalType [if b then 1 else 0] = [if b then 1 else 0] := by
        intro b
        rw [hty']
        cases b <;> decide
      have := bounds_eq (fun b : Bool => [if b then (1 : Byte) else 0]) (by decide) (m := s.minValue) (M := s.maxValue)
        (em := e.min) (eM := e.max) (by
          rcases h5 with ⟨x, y, j1, j2, j3, j4⟩ | ⟨j1, j2, j3⟩
          · obtain ⟨bx, k1, rfl⟩ := Option.map_eq_some_iff.1 j1
            obtain ⟨by', k2, rfl⟩ := Option.map_eq_some_iff.1 j2
            exact .inl ⟨_, _, by rw [k1]; rfl, by rw [k2]; rfl, j3.trans (congrArg some (hb bx)),
              j4.trans (congrArg some (hb by'))⟩
          · exact .inr ⟨j1, j2, j3⟩)
      rcases this with ⟨i1, i2⟩ | ⟨i1, i2, i3⟩
      · exact .inl ⟨by simp [numMin, i1], by simp [numMax, i2], rfl, rfl⟩
      · exact .inr ⟨by simp [numMin, i1], rfl, by simp [numMin, i2], by simp [numMax, i3], rfl, rfl⟩
    | fixedLen s => obtain ⟨-, n, h6, -⟩ := h2; rw [hty'] at h6; cases h6
    | _ => first | (have := h2.2; rw [hty'] at this; cases this)
  | int32 t' xs o =>
    refine indexStats_of _ _ t ?_ xs _ _ hp h
    intro a v s e h1 h2 h3 h4 h5
    have hty' : t.physicalType = .int32 := hty.symm
    simp only [boundOf_other (show t.physicalType ≠ .boolean by rw [hty']; simp)] at h5
    cases s with
    | int32 s =>
      simp only [serializeStatistics, Res.ok.injEq] at h1
      subst h1
      refine summarises_of_bounds h3 h4 ?_
      simp only [primitiveWrite, native] at h5
      rcases bounds_eq _ (leBytes_inj 4) h5 with ⟨i1, i2⟩ | ⟨i1, i2, i3⟩
      · exact .inl ⟨by simp [numMin, i1], by simp [numMax, i2], rfl, rfl⟩
      · exact .inr ⟨by simp [numMin, i1], rfl, by simp [numMin, i2], by simp [numMax, i3], rfl, rfl⟩
    | fixedLen s => obtain ⟨-, n, h6, -⟩ := h2; rw [hty'] at h6; cases h6
    | boolean s => have := h2; simp only [OfType] at this; rw [hty'] at this; cases this
    | _ => have := h2.2; rw [hty'] at this; cases this
  | int64 t' xs o =>
    refine indexStats_of _ _ t ?_ xs _ _ hp h
    intro a v s e h1 h2 h3 h4 h5
    have hty' : t.physicalType = .int64 := hty.symm
    simp only [boundOf_other (show t.physicalType ≠ .boolean by rw [hty']; simp)] at h5
    cases s with
    | int64 s =>
      simp only [serializeStatistics, Res.ok.injEq] at h1
      subst h1
      refine summarises_of_bounds h3 h4 ?_
      simp only [primitiveWrite, native] at h5
      rcases bounds_eq _ (leBytes_inj 8) h5 with ⟨i1, i2⟩ | ⟨i1, i2, i3⟩
      · exact .inl ⟨by simp [numMin, i1], by simp [numMax, i2], rfl, rfl⟩
      · exact .inr ⟨by simp [numMin, i1], rfl, by simp [numMin, i2], by simp [numMax, i3], rfl, rfl⟩
    | fixedLen s => obtain ⟨-, n, h6, -⟩ := h2; rw [hty'] at h6; cases h6
    | boolean s => have := h2; simp only [OfType] at this; rw [hty'] at this; cases this
    | _ => have := h2.2; rw [hty'] at this; cases this
  | int96 t' xs o =>
    refine indexStats_of _ _ t ?_ xs _ _ hp h
    intro a v s e h1 h2 h3 h4 h5
    have hty' : t.physicalType = .int96 := hty.symm
    simp only [boundOf_other (show t.physicalType ≠ .boolean by rw [hty']; simp)] at h5
    cases s with
    | int96 s =>
      simp only [serializeStatistics, Res.ok.injEq] at h1
      subst h1
      refine summarises_of_bounds h3 h4 ?_
      simp only [primitiveWrite, show (int96ToLe : Int96 → List Byte) = int96Bytes from funext fun x => (Props.C29_int96 x).1] at h5
      rcases bounds_eq _ int96Bytes_inj h5 with ⟨i1, i2⟩ | ⟨i1, i2, i3⟩
      · exact .inl ⟨rfl, rfl, rfl, rfl⟩
      · exact .inr ⟨rfl, rfl, rfl, rfl, rfl, rfl⟩
    | fixedLen s => obtain ⟨-, n, h6, -⟩ := h2; rw [hty'] at h6; cases h6
    | boolean s => have := h2; simp only [OfType] at this; rw [hty'] at this; cases this
    | _ => have := h2.2; rw [hty'] at this; cases this
  | float t' xs o =>
    refine indexStats_of _ _ t ?_ xs _ _ hp h
    intro a v s e h1 h2 h3 h4 h5
    have hty' : t.physicalType = .float := hty.symm
    simp only [boundOf_other (show t.physicalType ≠ .boolean by rw [hty']; simp)] at h5
    cases s with
    | float s =>
      simp only [serializeStatistics, Res.ok.injEq] at h1
      subst h1
      refine summarises_of_bounds h3 h4 ?_
      simp only [primitiveWrite, native] at h5
      rcases bounds_eq _ (leBytes_inj 4) h5 with ⟨i1, i2⟩ | ⟨i1, i2, i3⟩
      · exact .inl ⟨by simp [numMin, i1], by simp [numMax, i2], rfl, rfl⟩
      · exact .inr ⟨by simp [numMin, i1], rfl, by simp [numMin, i2], by simp [numMax, i3], rfl, rfl⟩
    | fixedLen s => obtain ⟨-, n, h6, -⟩ := h2; rw [hty'] at h6; cases h6
    | boolean s => have := h2; simp only [OfType] at this; rw [hty'] at this; cases this
    | _ => have := h2.2; rw [hty'] at this; cases this
  | double t' xs o =>
    refine indexStats_of _ _ t ?_ xs _ _ hp h
    intro a v s e h1 h2 h3 h4 h5
    have hty' : t.physicalType = .double := hty.symm
    simp only [boundOf_other (show t.physicalType ≠ .boolean by rw [hty']; simp)] at h5
    cases s with
    | double s =>
      simp only [serializeStatistics, Res.ok.injEq] at h1
      subst h1
      refine summarises_of_bounds h3 h4 ?_
      simp only [primitiveWrite, native] at h5
      rcases bounds_eq _ (leBytes_inj 8) h5 with ⟨i1, i2⟩ | ⟨i1, i2, i3⟩
      · exact .inl ⟨by simp [numMin, i1], by simp [numMax, i2], rfl, rfl⟩
      · exact .inr ⟨by simp [numMin, i1], rfl, by simp [numMin, i2], by simp [numMax, i3], rfl, rfl⟩
    | fixedLen s => obtain ⟨-, n, h6, -⟩ := h2; rw [hty'] at h6; cases h6
    | boolean s => have := h2; simp only [OfType] at this; rw [hty'] at this; cases this
    | _ => have := h2.2; rw [hty'] at this; cases this
  | byteArray t' xs o =>
    refine indexStats_of _ _ t ?_ xs _ _ hp h
    intro a v s e h1 h2 h3 h4 h5
    have hty' : t.physicalType = .byteArray := hty.symm
    simp only [boundOf_other (show t.physicalType ≠ .boolean by rw [hty']; simp)] at h5
    cases s with
    | binary s =>
      simp only [serializeStatistics, Res.ok.injEq] at h1
      subst h1
      refine summarises_of_bounds h3 h4 ?_
      replace h5 : (∃ x y, s.minValue.map id = some x ∧ s.maxValue.map id = some y ∧ e.min.map id = some x ∧
          e.max.map id = some y) ∨ (s.minValue.map id = none ∧ e.min.map id = none ∧ e.max.map id = none) := by
        simpa [binaryWrite] using h5
      rcases bounds_eq id (fun _ _ h => h) h5 with ⟨i1, i2⟩ | ⟨i1, i2, i3⟩
      · exact .inl ⟨rfl, rfl, by simp [bytesMin, i1], by simp [bytesMax, i2]⟩
      · exact .inr ⟨rfl, by simp [bytesMin, i1], rfl, rfl, by simp [bytesMin, i2], by simp [bytesMax, i3]⟩
    | fixedLen s => obtain ⟨-, n, h6, -⟩ := h2; rw [hty'] at h6; cases h6
    | boolean s => have := h2; simp only [OfType] at this; rw [hty'] at this; cases this
    | _ => have := h2.2; rw [hty'] at this; cases this
  | fixedLen t' xs o =>
    refine indexStats_of _ _ t ?_ xs _ _ hp h
    intro a v s e h1 h2 h3 h4 h5
    obtain ⟨n, hn⟩ := hfix _ _ _ rfl
    have hty' : t.physicalType = .fixedLenByteArray n := hty.symm.trans hn
    simp only [boundOf_other (show t.physicalType ≠ .boolean by rw [hty']; simp)] at h5
    cases s with
    | fixedLen s =>
      have h2' := h2.1
      rw [← h2'] at hty'
      simp only [serializeStatistics, hty', Res.ok.injEq] at h1
      subst h1
      refine summarises_of_bounds h3 h4 ?_
      replace h5 : (∃ x y, s.minValue.map id = some x ∧ s.maxValue.map id = some y ∧ e.min.map id = some x ∧
          e.max.map id = some y) ∨ (s.minValue.map id = none ∧ e.min.map id = none ∧ e.max.map id = none) := by
        simpa [fixedLenWrite] using h5
      rcases bounds_eq id (fun _ _ h => h) h5 with ⟨i1, i2⟩ | ⟨i1, i2, i3⟩
      · exact .inl ⟨rfl, rfl, by simp [bytesMin, i1], by simp [bytesMax, i2]⟩
      · exact .inr ⟨rfl, by simp [bytesMin, i1], rfl, rfl, by simp [bytesMin, i2], by simp [bytesMax, i3]⟩
    | boolean s => have := h2; simp only [OfType] at this; rw [hty'] at this; cases this
    | _ => have := h2.2; rw [hty'] at this; cases this

/-- The entries of the index of a column. -/
theorem columnOf_index {cs : Codecs} {ck : Bool} {options : WriteOptions} {arrays : List Array}
    {c : ColumnDescriptor × List CompressedPage} (hs : options.writeStatistics = true)
    (h : ColumnOf cs ck options arrays c) {index : Index} (hr : ColumnIndexReads c index) :
    List.Forall₂ (fun a s => Summarises [a] s) arrays (indexStats index) := by
  obtain ⟨opts, hp⟩ := h.pages
  have hdata : c.2.filter isData = c.2 := by
    refine List.filter_eq_self.2 fun p hpm => ?_
    obtain ⟨a, -, ha⟩ := Client.forall₂_right hp hpm
    obtain ⟨v, s, -, h1, -⟩ := pageOf_statistics hs ha
    exact h1
  have he := hr.entries
  rw [hdata] at he
  refine indexStats_summarises arrays c.2 index c.1.descriptor.primitiveType hr.physicalType hr.fixed (hp.imp ?_) he
  intro a cp ha
  obtain ⟨v, s, h1, -, h2, h3, h4, -⟩ := pageOf_statistics hs ha
  exact ⟨v, s, h1, h2, h3, h4⟩

/-! ### Searching -/

/-- Where items of these lengths start. -/
def startsFrom : Nat → List Nat → List Nat
  | _, [] => []
  | a, n :: ns => a :: startsFrom (a + n) ns

/-- The intervals of items of these lengths. -/
def spansFrom : Nat → List Nat → List Interval
  | _, [] => []
  | a, n :: ns => ⟨a, n⟩ :: spansFrom (a + n) ns

theorem startsFrom_get (a : Nat) (ns : List Nat) (i : Nat) (h : i < ns.length) :
    (startsFrom a ns)[i]? = some (a + (ns.take i).sum) := by
  induction ns generalizing a i with
  | nil => simp at h
  | cons n ns ih =>
    cases i with
    | zero => simp [startsFrom]
    | succ i =>
      rw [startsFrom, List.getElem?_cons_succ, ih (a + n) i (by simpa using h)]
      simp [Nat.add_assoc]

theorem startsFrom_length (a : Nat) (ns : List Nat) : (startsFrom a ns).length = ns.length := by
  induction ns generalizing a with
  | nil => rfl
  | cons n ns ih => simp [startsFrom, ih]

theorem spans_eq (ns : List Nat) (ivs : List Interval) (a b : Nat) (h1 : ivs.map (·.start) = startsFrom a ns)
    (h2 : Consecutive a b ivs) (h3 : a + ns.sum = b) : ivs = spansFrom a ns := by
  induction ns generalizing ivs a with
  | nil => simpa [startsFrom, spansFrom] using h1
  | cons n ns ih =>
    cases ivs with
    | nil => simp [startsFrom] at h1
    | cons iv ivs =>
      obtain ⟨h4, h5⟩ := h2
      simp only [List.map_cons, startsFrom, List.cons.injEq] at h1
      have hn : iv.length = n := by
        cases ns with
        | nil =>
          have : ivs = [] := by simpa [startsFrom] using h1.2
          subst this
          simp only [Consecutive] at h5
          simp at h3
          omega
        | cons m ns =>
          cases ivs with
          | nil => simp [startsFrom] at h1
          | cons iv' ivs =>
            have h6 := h5.1
            simp only [List.map_cons, startsFrom, List.cons.injEq] at h1
            omega
      obtain ⟨s, l⟩ := iv
      dsimp only at h4 hn
      subst h4 hn
      rw [spansFrom, ih ivs (s + l) h1.2 h5 (by simp at h3; omega)]

theorem legal_starts (ns : List Nat) (a b : Nat) (h : a + ns.sum ≤ b) :
    LegalRows b ((startsFrom a ns).map Int.ofNat) := by
  induction ns generalizing a with
  | nil => trivial
  | cons n ns ih =>
    have := ih (a + n) (by simp at h; omega)
    cases ns with
    | nil => simp [startsFrom, LegalRows] at h ⊢; omega
    | cons m ns =>
      refine ⟨Int.natCast_nonneg _, ?_, this⟩
      show (a : Int) ≤ ((a + n : Nat) : Int)
      omega

/-- The selected ones of items of these lengths. -/
theorem selectRows_spans {α : Type} (sel : List Bool) (items : List (List α)) (before : List α) :
    selectRows ((sel.zip (spansFrom before.length (items.map List.length))).filterMap
        fun x => if x.1 then some x.2 else none) (before ++ items.flatten) =
      ((sel.zip items).filter (·.1)).flatMap (·.2) := by
  induction items generalizing sel before with
  | nil => cases sel <;> simp [spansFrom, selectRows]
  | cons xs items ih =>
    cases sel with
    | nil => simp [selectRows]
    | cons b sel =>
      have := ih sel (before ++ xs)
      rw [List.length_append, List.append_assoc] at this
      rw [List.map_cons, spansFrom, List.zip_cons_cons, List.zip_cons_cons, List.flatten_cons]
      cases b with
      | false => simpa using this
      | true =>
        rw [List.filterMap_cons_some (b := ⟨before.length, xs.length⟩) (by simp), List.filter_cons_of_pos (by simp),
          List.flatMap_cons, ← this]
        simp [selectRows]

theorem filter_spans {α : Type} (P : α → Bool) (sel : List Bool) (items : List (List α))
    (h : List.Forall₂ (fun xs b => b = false → xs.filter P = []) items sel) :
    (((sel.zip items).filter (·.1)).flatMap (·.2)).filter P = items.flatten.filter P := by
  induction h with
  | nil => rfl
  | @cons xs b items sel h1 _ ih =>
    rw [List.zip_cons_cons, List.flatten_cons, List.filter_append, ← ih]
    cases b with
    | false => rw [List.filter_cons_of_neg (by simp), h1 rfl, List.nil_append]
    | true => rw [List.filter_cons_of_pos (by simp), List.flatMap_cons, List.filter_append]

theorem inRange_number (a : Array) (t : PhysicalType) (ht : HasType a t) (lo hi : Int) (item : Option (List Byte))
    (hm : item ∈ arrayItems a) (hr : inRange t lo hi item = true) :
    ∃ x, some x ∈ arrayNumbers a ∧ lo ≤ x ∧ x ≤ hi := by
  have le : ∀ (k : Nat) (x : BitVec (8 * k)),
      (leBytes k x.toNat).foldr (fun b n => b.toNat + 256 * n) 0 = x.toNat := by
    intro k x
    have hl : ∀ bs : List Byte, bs.foldr (fun b n => b.toNat + 256 * n) 0 = leNat bs := by
      intro bs
      induction bs with
      | nil => rfl
      | cons b bs ih => rw [List.foldr_cons, ih, leNat]
    rw [hl, Rle.leNat_leBytes]
    refine Nat.mod_eq_of_lt ?_
    have := x.isLt
    rwa [Nat.pow_mul] at this
  cases a <;> cases t <;> simp only [HasType] at ht <;>
    simp only [arrayItems, List.mem_map] at hm
  all_goals first
    | (obtain ⟨o, ho, rfl⟩ := hm
       cases o with
       | none => simp [inRange] at hr
       | some x =>
         first
         | (simp only [inRange, Option.map_some, Option.bind_some, itemNumber] at hr
            first
            | (rw [le 4 x, BitVec.ofNat_toNat, BitVec.setWidth_eq] at hr)
            | (rw [le 8 x, BitVec.ofNat_toNat, BitVec.setWidth_eq] at hr)
            first
            | (refine ⟨x.toInt, ?_, of_decide_eq_true hr⟩
               simp only [arrayNumbers, List.mem_map, Function.comp]
               exact ⟨x, by simpa using ho, rfl⟩)
            | (split at hr
               · rename_i y hy
                 refine ⟨y, ?_, of_decide_eq_true hr⟩
                 simp only [arrayNumbers, List.mem_map]
                 exact ⟨x, by simpa using ho, hy⟩
               · cases hr))
         | (simp [inRange, itemNumber] at hr))
    | (cases item with
       | none => simp [inRange] at hr
       | some x => simp [inRange, itemNumber] at hr)

theorem mayHold_of {xs : List (Option Int)} {s : Statistics} (h3 : Extremum numLe (xs.map some) (numMin s))
    (h4 : Extremum numGe (xs.map some) (numMax s)) {x lo hi : Int} (hx : some x ∈ xs) (h1 : lo ≤ x) (h2 : x ≤ hi) :
    mayHold lo hi s = true := by
  have hx' : some (some x) ∈ xs.map some := List.mem_map.2 ⟨_, hx, rfl⟩
  unfold mayHold
  cases hm : numMin s with
  | none => rw [hm] at h3; have := h3 _ hx'; cases this
  | some m =>
    cases hM : numMax s with
    | none => rw [hM] at h4; have := h4 _ hx'; cases this
    | some M =>
      rw [hm] at h3
      rw [hM] at h4
      obtain ⟨m', x', rfl, e1, h5⟩ := h3.2 _ hx'
      obtain ⟨x'', M', e2, rfl, h6⟩ := h4.2 _ hx'
      injection e1 with e1
      injection e2 with e2
      subst e1 e2
      simp only [decide_eq_true_eq]
      omega

/-- Arrays that the statistics exclude. -/
theorem mayHold_false (arrays : List Array) (t : PhysicalType) (ht : ∀ a ∈ arrays, HasType a t) (s : Statistics)
    (hs : Summarises arrays s) (hn : ∀ v ∈ arrays.flatMap arrayNumbers, v ≠ none) (lo hi : Int)
    (h : mayHold lo hi s = false) : (arrays.flatMap arrayItems).filter (inRange t lo hi) = [] := by
  refine List.filter_eq_nil_iff.2 fun item hm hr => ?_
  obtain ⟨a, ha, hm⟩ := List.mem_flatMap.1 hm
  obtain ⟨x, hx, h1, h2⟩ := inRange_number a t (ht a ha) lo hi item hm hr
  obtain ⟨h3, h4⟩ := hs.numbers hn
  rw [mayHold_of h3 h4 (List.mem_flatMap.2 ⟨a, ha, hx⟩) h1 h2] at h
  cases h

theorem locates_starts {codec : Codec Thrift.PageHeader} {file : List Byte} {cs : Codecs} {ck : Bool}
    {options : WriteOptions} {arrays : List Array} {c : ColumnDescriptor × List CompressedPage}
    {locations : List Thrift.PageLocation} (h : ColumnOf cs ck options arrays c)
    (hl : Locates codec file c.2 locations) :
    locations.map (·.firstRowIndex.toInt) = (startsFrom 0 (arrays.map Array.len)).map Int.ofNat := by
  obtain ⟨opts, hp⟩ := h.pages
  have hf := h.flat
  have hdata : c.2.filter isData = c.2 := by
    refine List.filter_eq_self.2 fun p hpm => ?_
    obtain ⟨a, -, ha⟩ := Client.forall₂_right hp hpm
    obtain ⟨s, lv, vals, buf, -, rfl, -⟩ := pageOf_shape hf ha
    rfl
  obtain ⟨h1, h2⟩ := hl
  rw [hdata] at h1 h2
  have hlen := hp.length_eq
  refine List.ext_getElem? fun i => ?_
  by_cases hi : i < locations.length
  · have hi2 : i < c.2.length := by omega
    have := (h2 i _ _ (List.getElem?_eq_getElem hi) (List.getElem?_eq_getElem hi2)).2.2.2
    rw [List.getElem?_map, List.getElem?_map, List.getElem?_eq_getElem hi, Option.map_some, this,
      startsFrom_get 0 _ i (by simp; omega), Option.map_some, Nat.zero_add]
    congr 2
    clear this hi hi2 h2 h1 hdata h hlen
    generalize c.2 = cps at hp
    induction hp generalizing i with
    | nil => simp [chunkRows]
    | @cons a cp as cps h1 h2 ih =>
      cases i with
      | zero => rfl
      | succ i =>
        obtain ⟨s, lv, vals, buf, -, rfl, -⟩ := pageOf_shape hf h1
        have := ih i
        simp only [chunkRows] at this ⊢
        rw [List.map_cons, List.take_succ_cons, List.take_succ_cons, List.sum_cons, ← this]
        rfl
  · rw [List.getElem?_eq_none (by simpa using hi), List.getElem?_eq_none (by simp [startsFrom_length]; omega)]

theorem forall₂_comp {α β γ : Type} {R : α → β → Prop} {S : β → γ → Prop} {as : List α} {bs : List β} {cs : List γ}
    (h : List.Forall₂ R as bs) (h' : List.Forall₂ S bs cs) : List.Forall₂ (fun a c => ∃ b ∈ bs, R a b ∧ S b c) as cs := by
  induction h generalizing cs with
  | nil => cases h'; exact .nil
  | cons h1 _ ih =>
    cases h' with
    | cons h2 h3 =>
      exact .cons ⟨_, by simp, h1, h2⟩ ((ih h3).imp fun _ _ ⟨b, hb, h⟩ => ⟨b, by simp [hb], h⟩)

theorem arrayItems_length (a : Array) : (arrayItems a).length = a.len := by
  cases a <;> simp [arrayItems, Array.len]

/-- Searching a column. -/
theorem columnOf_searches {codec : Codec Thrift.PageHeader} {file : List Byte}
    {cs : Codecs} {ck : Bool} {options : WriteOptions} {arrays : List Array}
    {c : ColumnDescriptor × List CompressedPage} {chunk : ColumnChunkMetaData}
    {locations : List Thrift.PageLocation} {index : Index} (hs : options.writeStatistics = true)
    (h : ColumnOf cs ck options arrays c) (hd : chunk.columnDescr = c.1) (hpos : ∀ a ∈ arrays, 0 < a.len)
    (hnan : ∀ v ∈ arrays.flatMap arrayNumbers, v ≠ none)
    (hl : Locates codec file c.2 locations) (hr : ColumnIndexReads c index)
    (hsel : ChunkSelects codec cs ck file arrays chunk locations) :
    ChunkSearches codec cs ck file arrays chunk locations index := by
  intro lo hi buffers
  have hst := locates_starts h hl
  have hsum := columnOf_index hs h hr
  have hlegal : LegalRows (arrays.map Array.len).sum (locations.map (·.firstRowIndex.toInt)) := by
    rw [hst]
    exact legal_starts _ 0 _ (by omega)
  obtain ⟨spans, rows, e1, e2, e3, e4, -⟩ := Props.C28_compute_rows
    ((indexStats index).map (mayHold lo hi)) locations (arrays.map Array.len).sum hlegal
  have hspans : spans = spansFrom 0 (arrays.map Array.len) := by
    obtain ⟨ivs, f1, f2, f3⟩ := (cpri_spec locations (arrays.map Array.len).sum).1 hlegal
    rw [e1] at f1
    injection f1 with f1
    subst f1
    rw [hst] at f2
    have f2' : spans.map (·.start) = startsFrom 0 (arrays.map Array.len) := by
      have : (spans.map (·.start)).map Int.ofNat = (startsFrom 0 (arrays.map Array.len)).map Int.ofNat := by
        rw [← f2, List.map_map]
        rfl
      exact List.map_injective_iff.2 (fun a b h => Int.ofNat.inj h) this
    cases hsp : spans with
    | nil =>
      rw [hsp] at f2'
      cases ha : arrays.map Array.len with
      | nil => rfl
      | cons n ns => rw [ha] at f2'; cases f2'
    | cons iv ivs =>
      rw [← hsp]
      refine spans_eq _ _ 0 (arrays.map Array.len).sum f2' ?_ (by omega)
      have h0 : iv.start = 0 := by
        rw [hsp] at f2'
        cases ha : arrays.map Array.len with
        | nil => rw [ha] at f2'; cases f2'
        | cons n ns => rw [ha] at f2'; exact (List.cons.inj f2').1
      have := f3 iv (by rw [hsp]; rfl)
      rwa [h0] at this
  have hrows : rows = (((indexStats index).map (mayHold lo hi)).zip spans).filterMap
      fun x => if x.1 then some x.2 else none := by
    simp only [computeRows, e1, Res.ok_bind, Res.ok.injEq] at e2
    exact e2.symm
  have hne : ∀ iv ∈ rows, 0 < iv.length := by
    intro iv hiv
    rw [hrows] at hiv
    obtain ⟨x, hx, hx2⟩ := List.mem_filterMap.1 hiv
    have hm : x.2 ∈ spansFrom 0 (arrays.map Array.len) := by
      rw [← hspans]; exact (List.of_mem_zip (a := x.1) (b := x.2) hx).2
    have : x.2 = iv := by
      split at hx2
      · exact Option.some.inj hx2
      · cases hx2
    rw [this] at hm
    have key : ∀ (ns : List Nat) (a : Nat), (∀ n ∈ ns, 0 < n) → ∀ iv ∈ spansFrom a ns, 0 < iv.length := by
      intro ns
      induction ns with
      | nil => intro a _ iv hiv; cases hiv
      | cons n ns ih =>
        intro a hp iv hiv
        rcases List.mem_cons.1 hiv with rfl | hiv
        · exact hp n (by simp)
        · exact ih (a + n) (fun m hm => hp m (by simp [hm])) iv hiv
    refine key _ 0 ?_ iv hm
    intro n hn
    obtain ⟨a, ha, rfl⟩ := List.mem_map.1 hn
    exact hpos a ha
  obtain ⟨filtered, reader, out, g1, g2, g3, -, g5⟩ := hsel rows buffers e3 e4 hne
  refine ⟨rows, filtered, reader, out, e2, g1, g2, g3, ?_⟩
  rw [g5, hrows, hspans]
  have hm : arrays.map Array.len = (arrays.map arrayItems).map List.length := by
    rw [List.map_map]
    exact List.map_congr_left fun a _ => (arrayItems_length a).symm
  have := selectRows_spans ((indexStats index).map (mayHold lo hi)) (arrays.map arrayItems) []
  rw [List.length_nil, List.nil_append, ← hm] at this
  show (selectRows _ (arrays.map arrayItems).flatten).filter _ = (arrays.map arrayItems).flatten.filter _
  rw [this]
  refine filter_spans _ _ _ (List.forall₂_map_left_iff.2 (List.forall₂_map_right_iff.2 ?_))
  obtain ⟨opts, hp⟩ := h.pages
  have hty : ∀ a ∈ arrays, HasType a chunk.columnDescr.descriptor.primitiveType.physicalType := by
    intro a ha
    obtain ⟨cp, -, hcp⟩ := forall₂_left hp ha
    rw [hd]
    exact hcp.1
  clear g5 this hm hne hrows hspans e4 e3 e2 e1 hlegal hst g1 g2 g3 hsel hl hr hpos h hp
  generalize indexStats index = stats at hsum ⊢
  induction hsum with
  | nil => exact .nil
  | @cons a s as ss h1 h2 ih =>
    refine .cons ?_ (ih (fun v hv => hnan v (by simp only [List.flatMap_cons, List.mem_append]; exact .inr hv))
      (fun x hx => hty x (by simp [hx])))
    intro hfalse
    have := mayHold_false [a] _ (by simpa using hty a (by simp)) s h1 (fun v hv => hnan v (by
      simp only [List.flatMap_cons, List.flatMap_nil, List.append_nil] at hv
      simp only [List.flatMap_cons, List.mem_append]
      exact .inl hv)) lo hi hfalse
    simpa using this

end Pq.Client
