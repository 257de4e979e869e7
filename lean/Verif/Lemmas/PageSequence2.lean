import Verif.Lemmas.PageSequence
/-
Sequences of pages: filters, buffers, bytes.
-/
namespace Pq
open Spec

/-! ### Filters -/

theorem pulls_congr {σ α : Type} {next : σ → Option α × σ} {s s' t : σ} {xs : List α} (h : next s = next s')
    (hp : Pulls next s' xs t) : Pulls next s xs t := by
  cases hp with
  | done h' => exact .done (by rw [h]; exact h')
  | item h' hp => exact .item (by rw [h]; exact h') hp

theorem pulls_filter {codec : Codec Thrift.PageHeader} (hs : SaneCodec codec) (ck : Bool) (f : PageFilter)
    (d : Descriptor) (s t : PageReader) (xs : List (Res CompressedPage))
    (h : Pulls (PageReader.next codec ck) s xs t) (hall : s.pagesFilter = fun _ _ => true)
    (hd : s.descriptor = d) :
    Pulls (PageReader.next codec ck) (s.withFilter f) (xs.filter (s.withFilter f).wants) (t.withFilter f) := by
  induction h with
  | @done s t h =>
    have := next_filter hs ck (s.withFilter f)
    have e : (s.withFilter f).all = s := by simp only [PageReader.all, PageReader.withFilter, ← hall]
    rw [e, h] at this
    exact .done this
  | @item s s' t x xs h _ ih =>
    have := next_filter hs ck (s.withFilter f)
    have e : (s.withFilter f).all = s := by simp only [PageReader.all, PageReader.withFilter, ← hall]
    rw [e, h] at this
    simp only at this
    have hc : SameConfig s s' := by
      have := (nextFuel_spec (codec := codec) ck (s.reader.length + 2) s).1
      rw [show PageReader.nextFuel codec ck (s.reader.length + 2) s = (some x, s') from h] at this
      exact this
    have hc' : SameConfig (s.withFilter f) (s'.withFilter f) := ⟨hc.1, hc.2.1, rfl, hc.2.2.2.1, hc.2.2.2.2⟩
    have hw : (s'.withFilter f).wants = (s.withFilter f).wants := funext fun x => wants_config hc' x
    have ih := ih (by rw [hc.2.2.1]; exact hall) (by rw [hc.2.2.2.1]; exact hd)
    rw [hw] at ih
    rw [List.filter_cons]
    change _ = if (s.withFilter f).wants x then (some x, s'.withFilter f)
      else PageReader.next codec ck (s'.withFilter f) at this
    by_cases hx : (s.withFilter f).wants x = true
    · rw [if_pos hx] at this ⊢
      exact .item this ih
    · rw [if_neg hx] at this ⊢
      exact pulls_congr this ih

theorem pulled_filter {codec : Codec Thrift.PageHeader} (hs : SaneCodec codec) (ck : Bool) (s t : PageReader)
    (ys : List (Res CompressedPage)) (h : Pulled (PageReader.next codec ck) s ys t) :
    ∃ xs, Pulled (PageReader.next codec ck) s.all xs t.all ∧ ys = xs.filter s.wants := by
  -- one item of the reader with the filter
  have one : ∀ (n : Nat) (s t : PageReader) (y : Res CompressedPage), s.reader.length < n →
      PageReader.next codec ck s = (some y, t) →
      ∃ xs, Pulled (PageReader.next codec ck) s.all xs t.all ∧ xs.filter s.wants = [y] ∧ SameConfig s t := by
    intro n
    induction n with
    | zero => intro s t y hn; omega
    | succ n ih =>
      intro s t y hn h
      have hst := next_filter hs ck s
      rcases hx : PageReader.next codec ck s.all with ⟨x, u⟩
      have hc : SameConfig s.all u := by
        have := (nextFuel_spec (codec := codec) ck (s.all.reader.length + 2) s.all).1
        rw [show PageReader.nextFuel codec ck (s.all.reader.length + 2) s.all = (x, u) from hx] at this
        exact this
      have hua : (u.withFilter s.pagesFilter).all = u := by
        have : u.pagesFilter = fun _ _ => true := hc.2.2.1
        simp only [PageReader.all, PageReader.withFilter, ← this]
      have hc' : SameConfig s (u.withFilter s.pagesFilter) := ⟨hc.1, hc.2.1, rfl, hc.2.2.2.1, hc.2.2.2.2⟩
      rw [hx, h] at hst
      cases x with
      | none => simp at hst
      | some x =>
        simp only at hst
        by_cases hw : s.wants x = true
        · rw [if_pos hw] at hst
          simp only [Prod.mk.injEq, Option.some.injEq] at hst
          obtain ⟨rfl, rfl⟩ := hst
          refine ⟨[y], ?_, by simp [hw], hc'⟩
          rw [hua]
          exact .cons hx (.nil _)
        · rw [if_neg hw] at hst
          have hlt : u.reader.length < s.reader.length := by
            have hok : ∃ p, x = .ok p := by
              cases x with
              | ok p => exact ⟨p, rfl⟩
              | err e => simp [PageReader.wants] at hw
              | panic => simp [PageReader.wants] at hw
            obtain ⟨p, rfl⟩ := hok
            exact next_shorter hs ck s.all u p hx
          obtain ⟨xs, h1, h2, h3⟩ := ih (u.withFilter s.pagesFilter) t y (by
            show u.reader.length < n
            omega) hst.symm
          rw [hua] at h1
          refine ⟨x :: xs, .cons hx h1, ?_, hc'.trans h3⟩
          rw [List.filter_cons, if_neg hw]
          have : s.wants = (u.withFilter s.pagesFilter).wants := (funext fun x => wants_config hc' x).symm
          rw [this]
          exact h2
  have app : ∀ {s t u : PageReader} {xs ys : List (Res CompressedPage)},
      Pulled (PageReader.next codec ck) s xs t → Pulled (PageReader.next codec ck) t ys u →
      Pulled (PageReader.next codec ck) s (xs ++ ys) u := by
    intro s t u xs ys h h'
    induction h with
    | nil => exact h'
    | cons h _ ih => exact .cons h (ih h')
  induction h with
  | nil s => exact ⟨[], .nil _, rfl⟩
  | @cons s s' t y ys h _ ih =>
    obtain ⟨xs, h1, h2⟩ := ih
    obtain ⟨zs, h3, h4, h5⟩ := one (s.reader.length + 1) s s' y (by omega) h
    refine ⟨zs ++ xs, app h3 h1, ?_⟩
    rw [List.filter_append, h4, h2]
    have : s'.wants = s.wants := funext fun x => wants_config h5 x
    rw [this]
    rfl

/-! ### Buffers -/

theorem build_scratch (codec : Codec Thrift.PageHeader) (ck : Bool) (r : PageReader) (b : List Byte) :
    (PageReader.next codec ck { r with scratch := b }).1 = (PageReader.next codec ck r).1 ∧
    { (PageReader.next codec ck { r with scratch := b }).2 with scratch := [] } =
      { (PageReader.next codec ck r).2 with scratch := [] } := by
  simp only [PageReader.next, PageReader.nextFuel, nextPage]
  by_cases hv : r.totalNumValues.toInt ≤ r.seenNumValues.toInt
  · rw [if_pos hv]
    exact ⟨rfl, rfl⟩
  · rw [if_neg hv]
    exact ⟨rfl, rfl⟩

end Pq
