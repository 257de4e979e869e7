import Verif.Lemmas.Deserialize2
import Verif.Lemmas.DeltaBytes
import Verif.Props.HybridRle
/-
Lemmas for the states pages are decoded with: asking the hybrid decoder for more values than were
encoded (null rows have no value) gives those values first.
-/
namespace Pq.Rle
open Spec

/-- Number of values of a run. -/
def runCount (n : Nat) : Encoded → Nat
  | .bitpacked p => p.length * 8 / n
  | .rle _ k => k

theorem runValues_sub (n rem : Nat) (run : Encoded) :
    rem - (runValues n rem run).length = rem - runCount n run := by
  cases run <;> simp [runValues, runCount] <;> omega

theorem runValues_take (n k N : Nat) (hk : k ≤ N) (run : Encoded) :
    (runValues n N run).take k = (runValues n k run).take k := by
  cases run with
  | rle bs c => rfl
  | bitpacked p =>
    simp only [runValues]
    rw [← List.map_take, ← List.map_take, List.take_range, List.take_range]
    congr 2
    omega

theorem runValues_length_min (n k N : Nat) (hk : k ≤ N) (run : Encoded) :
    k - ((runValues n N run).take N).length = k - runCount n run := by
  cases run <;> simp [runValues, runCount] <;> omega

/-- Asking for fewer values gives a prefix. -/
theorem expand_prefix (n f : Nat) (v : List Byte) (k N : Nat) (hk : k ≤ N) (xs : List U32)
    (h : expand n f v N = .ok xs) : expand n f v k = .ok (xs.take k) := by
  induction f generalizing v k N xs with
  | zero => simp [expand] at h
  | succ f ih =>
    rw [expand] at h ⊢
    by_cases h0 : k = 0
    · subst h0; simp
    · rw [if_neg (by omega)] at h
      rw [if_neg h0]
      cases hr : Runs.next ⟨v, n⟩ with
      | err e => rw [hr] at h; simp at h
      | panic => rw [hr] at h; simp at h
      | ok p =>
        obtain ⟨run, d⟩ := p
        rw [hr] at h
        cases run with
        | none =>
          simp only [Res.ok.injEq] at h ⊢
          subst h
          simp [Nat.min_eq_left hk]
        | some run =>
          simp only at h ⊢
          rw [runValues_sub] at h ⊢
          cases he : expand n f d.values (N - runCount n run) with
          | err e => rw [he] at h; simp [Res.map'] at h
          | panic => rw [he] at h; simp [Res.map'] at h
          | ok tail =>
            rw [he] at h
            simp only [Res.map', Res.ok.injEq] at h
            subst h
            rw [ih d.values (k - runCount n run) (N - runCount n run) (by omega) tail he]
            simp only [Res.map', Res.ok.injEq]
            rw [List.take_append, runValues_length_min n k N hk, List.take_take, Nat.min_eq_left hk,
              runValues_take n k N hk]

theorem decode_prefix (n : Nat) (hn : 0 < n) (hn32 : n ≤ 32) (data : List Byte) (k N : Nat)
    (hk : k ≤ N) (xs ys : List U32) (h : decode data n N = .ok xs) (h' : decode data n k = .ok ys) :
    xs.take k = ys := by
  rw [decode_eq n hn hn32] at h h'
  split at h
  · simp at h
  · rename_i hp
    rw [if_neg hp, expand_prefix n _ data k N hk xs h] at h'
    exact (Res.ok.inj h')

/-- One packed run cut short, asked for any number of values: no panic. -/
theorem decode_packed_total (n g N : Nat) (hn : 0 < n) (hn32 : n ≤ 32) (h body : List Byte)
    (hh : IsHeader h (2 * g + 1)) (hg : body.length ≤ g * n) (hlt : g * n < 2 ^ 64) :
    ∃ xs, decode (h ++ body) n N = .ok xs := by
  rw [decode_eq n hn hn32]
  by_cases hne : body = []
  · have hnx := next_packed_nil n g hn h hh
    rw [hne, List.append_nil, hnx, if_neg (by simp)]
    change ∃ xs, expandAll n h N = _
    rw [expandAll_none n h N _ hnx]
    exact ⟨_, rfl⟩
  · have hnx := next_packed n g hn h body [] hh (by simpa using hne) hlt
    rw [List.append_nil] at hnx
    rw [hnx, if_neg (by simp)]
    change ∃ xs, expandAll n _ N = _
    by_cases hN : N = 0
    · subst hN; exact ⟨_, expandAll_zero _ _⟩
    · rw [expandAll_some n _ N hN _ _ hnx]
      have hd : body.drop (g * n) = [] := List.drop_eq_nil_of_le hg
      rw [hd, expandAll_none n [] _ ⟨[], n⟩ (by rw [Runs.next, if_neg (by simp; omega)]; simp)]
      exact ⟨_, rfl⟩

/-- Values written by `encode` and read with room for more. -/
theorem decode_more (n : Nat) (hn : 0 < n) (hn32 : n ≤ 32) (xs : List U32)
    (hfit : ∀ x ∈ xs, x.toNat < 2 ^ n) (hlen : 4 * xs.length < 2 ^ 63) (data : List Byte)
    (henc : encodeU32 xs n = .ok data) (N : Nat) (hN : xs.length ≤ N) :
    ∃ ys, decode data n N = .ok ys ∧ ys.length = N ∧ ys.take xs.length = xs := by
  obtain ⟨h, body, h1, h2, h3, _, h5⟩ := Props.C08_hybrid_u32_roundtrip n hn hn32 xs hfit hlen []
  rw [henc] at h1
  simp only [Res.ok.injEq] at h1
  subst h1
  rw [List.append_nil] at h5
  have hmul : (xs.length * n + 7) / 8 ≤ (xs.length + 7) / 8 * n := by
    have h1 : xs.length ≤ 8 * ((xs.length + 7) / 8) := by omega
    have h2 := Nat.mul_le_mul_right n h1
    rw [Nat.mul_assoc] at h2
    omega
  have hbound : (xs.length + 7) / 8 * n < 2 ^ 64 := by
    have : (xs.length + 7) / 8 * n ≤ (xs.length + 7) / 8 * 32 := Nat.mul_le_mul_left _ hn32
    omega
  obtain ⟨ys, hy⟩ := decode_packed_total n _ N hn hn32 h body h2 (by omega) hbound
  refine ⟨ys, hy, ?_, decode_prefix n hn hn32 _ _ N hN ys xs hy h5⟩
  rcases Props.C10_exact_count (h ++ body) n N hn32 with ⟨zs, h6, h7⟩ | ⟨h6, -⟩
  · rw [hy] at h6
    rw [Res.ok.inj h6]; exact h7
  · rw [hy] at h6; cases h6

end Pq.Rle

namespace Pq.Deser
open Spec

theorem assemble_take {α : Type} (bits : List Bool) (vs : List α) :
    assemble bits (vs.take (bits.count true)) = assemble bits vs := by
  induction bits generalizing vs with
  | nil => rfl
  | cons b bits ih =>
    cases b with
    | false => simp [assemble, ih]
    | true =>
      cases vs with
      | nil => simp
      | cons v vs => simp [assemble, ih]

theorem count_isSome {α : Type} (col : List (Option α)) :
    (col.map Option.isSome).count true = (col.filterMap id).length := by
  induction col with
  | nil => rfl
  | cons x xs ih => cases x <;> simp_all

theorem chunksExact_concat {α : Type} (k : Nat) (hk : 0 < k) (items : List (List α))
    (h : ∀ s ∈ items, s.length = k) : chunksExact k items.flatten = items := by
  have hfl : items.flatten.length = items.length * k := by
    induction items with
    | nil => simp
    | cons v vs ih =>
      have hv := h v (by simp)
      rw [List.flatten_cons, List.length_append, ih (fun s hs => h s (by simp [hs])),
        List.length_cons, hv]
      have := Nat.add_mul vs.length 1 k
      omega
  apply List.ext_getElem
  · rw [chunksExact_length, hfl, Nat.mul_div_cancel _ hk]
  · intro i hi1 hi2
    simp only [chunksExact, List.getElem_map, List.getElem_range]
    clear hi1 hfl
    induction items generalizing i with
    | nil => simp at hi2
    | cons v vs ih =>
      have hv := h v (by simp)
      cases i with
      | zero =>
        simp only [Nat.zero_mul, List.drop_zero, List.flatten_cons, List.getElem_cons_zero]
        rw [List.take_append_of_le_length (by omega), List.take_of_length_le (by omega)]
      | succ i =>
        rw [List.flatten_cons, Nat.succ_mul, List.drop_append, hv,
          List.drop_eq_nil_of_le (by omega), List.nil_append,
          show i * k + k - k = i * k by omega]
        simpa using ih (fun s hs => h s (by simp [hs])) i (by simpa using hi2)

theorem fixedIter_ok (size : Nat) (hs : 0 < size) (items : List (List Byte))
    (h : ∀ s ∈ items, s.length = size) (vals : List Byte) (hv : vals = items.flatten) :
    fixedIter vals size = .ok items := by
  unfold fixedIter
  rw [if_neg (by omega), hv, chunksExact_concat size hs items h]

theorem nativeCast_ok (b : Nat) (hb : 0 < b) (page : DataPage) (rep lv : List Byte)
    (xs : List (BitVec (8 * b)))
    (hsplit : splitBuffer page = .ok (rep, lv, xs.flatMap (nativeToLe b))) :
    nativeCast b page = .ok (xs.map .ok) := by
  have hl : ∀ s ∈ xs.map (nativeToLe b), s.length = b := by
    intro s hs
    obtain ⟨x, _, rfl⟩ := List.mem_map.1 hs
    exact toLe_length b x
  have e := chunksExact_concat b hb (xs.map (nativeToLe b)) hl
  have e' : (xs.map (nativeToLe b)).flatten = xs.flatMap (nativeToLe b) := by
    simp [List.flatMap]
  rw [e'] at e
  unfold nativeCast
  rw [hsplit]
  simp only [Res.ok_bind]
  have hlen : (xs.flatMap (nativeToLe b)).length % b = 0 := by
    rw [← e']
    have : ∀ l : List (List Byte), (∀ s ∈ l, s.length = b) → l.flatten.length % b = 0 := by
      intro l
      induction l with
      | nil => simp
      | cons v vs ih =>
        intro hh
        rw [List.flatten_cons, List.length_append, hh v (by simp), Nat.add_mod_left]
        exact ih fun s hs => hh s (by simp [hs])
    exact this _ hl
  rw [if_neg (by omega), e, List.map_map]
  congr 1
  apply List.map_congr_left
  intro x _
  simp only [Function.comp, nativeDecode, nativeToLe, toLe_length, if_true, fromLe_toLe]

/-- The decoder of `decode`. -/
theorem tryNew_yields {data : List Byte} {n N : Nat} {ys : List Rle.U32}
    (h : Rle.decode data n N = .ok ys) :
    ∃ d, Rle.Dec.tryNew data n N = .ok d ∧ Yields Rle.Dec.next d ys := by
  unfold Rle.decode at h
  cases hd : Rle.Dec.tryNew data n N with
  | err e => rw [hd] at h; simp at h
  | panic => rw [hd] at h; simp at h
  | ok d =>
    rw [hd] at h
    exact ⟨d, rfl, Yields.of_drain _ h⟩

end Pq.Deser
