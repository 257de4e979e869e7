import Verif.Lemmas.ThriftCompact
import Verif.Spec.PageSource
/-
The thrift compact protocol, reading from a reader a byte at a time, is lawful: what it makes of a structure
depends on the bytes of the structure only.
-/
namespace Pq.Compact

open Spec

theorem bind_ok {α β : Type} {x : Res α} {f : α → Res β} {b : β} (h : (x >>= f) = .ok b) :
    ∃ a, x = .ok a ∧ f a = .ok b := Res.bind_eq_ok.1 h

/-- A reader whose result depends only on the bytes it takes. -/
def Local {α : Type} (n : Nat) (f : List Byte → Res (α × List Byte)) : Prop :=
  ∀ bs a rest, f bs = .ok (a, rest) → ∃ c, bs = c ++ rest ∧ n ≤ c.length ∧ ∀ ext, f (c ++ ext) = .ok (a, ext)

theorem local_readByte : Local 1 readByte := by
  intro bs a rest h
  cases bs with
  | nil => cases h
  | cons b bs =>
    cases h
    exact ⟨[a], rfl, by simp, fun _ => rfl⟩

theorem local_readN (n : Nat) : Local n (readN n) := by
  intro bs a rest h
  rw [readN] at h
  split at h
  · next hn =>
    cases h
    have hl : (bs.take n).length = n := by rw [List.length_take]; omega
    refine ⟨bs.take n, by simp, by omega, fun ext => ?_⟩
    have := readN_append (bs.take n) ext
    rwa [hl] at this
  · cases h

theorem local_readUvar : Local 1 readUvar := by
  intro bs
  induction bs with
  | nil => intro a rest h; cases h
  | cons b bs ih =>
    intro a rest h
    rw [readUvar] at h
    split at h
    · next hb =>
      cases h
      exact ⟨[b], rfl, by simp, fun ext => by simp [readUvar, hb]⟩
    · next hb =>
      obtain ⟨⟨n, r⟩, h1, h2⟩ := bind_ok h
      cases h2
      obtain ⟨c, rfl, hc, he⟩ := ih _ _ h1
      exact ⟨b :: c, rfl, by simp, fun ext => by simp [readUvar, hb, he]⟩

theorem local_readZvar (w : Nat) : Local 1 (readZvar w) := by
  intro bs a rest h
  obtain ⟨⟨n, r⟩, h1, h2⟩ := bind_ok h
  cases h2
  obtain ⟨c, rfl, hc, he⟩ := local_readUvar _ _ _ h1
  exact ⟨c, rfl, hc, fun ext => by simp [readZvar, he]⟩

theorem local_readListHeader : Local 1 readListHeader := by
  intro bs a rest h
  obtain ⟨⟨b, r⟩, h1, h2⟩ := bind_ok h
  obtain ⟨c, rfl, hc, he⟩ := local_readByte _ _ _ h1
  simp only at h2
  split at h2
  · next hb =>
    cases h2
    exact ⟨c, rfl, hc, fun ext => by simp [readListHeader, he, hb]⟩
  · next hb =>
    obtain ⟨⟨n, r'⟩, h3, h4⟩ := bind_ok h2
    cases h4
    obtain ⟨c', rfl, hc', he'⟩ := local_readUvar _ _ _ h3
    refine ⟨c ++ c', by simp, by simp; omega, fun ext => ?_⟩
    rw [List.append_assoc, readListHeader, he]
    simp only [Res.ok_bind, if_neg hb, he']

theorem local_readBool (b : Byte) : Local 0 (readBool b) := by
  intro bs a rest h
  have : ∀ ext, readBool b (([] : List Byte) ++ ext) = .ok (a, ext) := by
    intro ext
    rw [readBool] at h ⊢
    split at h
    · next hb => cases h; rw [if_pos hb]; rfl
    · next hb =>
      split at h
      · next hb2 => cases h; rw [if_neg hb, if_pos hb2]; rfl
      · cases h
  refine ⟨[], ?_, by simp, this⟩
  rw [readBool] at h
  split at h
  · cases h; rfl
  · split at h
    · cases h; rfl
    · cases h

theorem local_readId (prev : BitVec 16) (d : Nat) : Local 0 (readId prev d) := by
  intro bs a rest h
  rw [readId] at h
  split at h
  · next hd =>
    obtain ⟨c, h1, h2, h3⟩ := local_readZvar 16 _ _ _ h
    exact ⟨c, h1, by omega, fun ext => by rw [readId, if_pos hd, h3]⟩
  · next hd =>
    cases h
    exact ⟨[], rfl, by simp, fun ext => by rw [readId, if_neg hd]; rfl⟩

/-- Two readers one after the other. -/
theorem Local.seq {α β : Type} {n m : Nat} {f : List Byte → Res (α × List Byte)}
    {g : α → List Byte → Res (β × List Byte)} (hf : Local n f) (hg : ∀ a, Local m (g a)) :
    Local (n + m) (fun bs => f bs >>= fun x => g x.1 x.2) := by
  intro bs b rest h
  obtain ⟨⟨a, r⟩, h1, h2⟩ := bind_ok h
  obtain ⟨c, rfl, hc, he⟩ := hf _ _ _ h1
  obtain ⟨c', rfl, hc', he'⟩ := hg a _ _ _ h2
  refine ⟨c ++ c', by simp, by simp; omega, fun ext => ?_⟩
  simp only [List.append_assoc, he, Res.ok_bind, he']

theorem Local.map {α β : Type} {n : Nat} {f : List Byte → Res (α × List Byte)} (hf : Local n f) (g : α → β) :
    Local n (fun bs => f bs >>= fun x => .ok (g x.1, x.2)) :=
  hf.seq (m := 0) (g := fun a bs => .ok (g a, bs)) fun a bs b rest h => by
    cases h
    exact ⟨[], rfl, by simp, fun ext => rfl⟩

theorem local_dec (fuel : Nat) :
    (∀ code bs v rest, decVal fuel code bs = .ok (v, rest) → ∃ c, bs = c ++ rest ∧ 1 ≤ c.length ∧
      ∀ fuel' ext, 2 * c.length ≤ fuel' → decVal fuel' code (c ++ ext) = .ok (v, ext)) ∧
    (∀ code n bs vs rest, decList fuel code n bs = .ok (vs, rest) → ∃ c, bs = c ++ rest ∧
      ∀ fuel' ext, 2 * c.length + 1 ≤ fuel' → decList fuel' code n (c ++ ext) = .ok (vs, ext)) ∧
    (∀ prev bs fs rest, decFields fuel prev bs = .ok (fs, rest) → ∃ c, bs = c ++ rest ∧ 1 ≤ c.length ∧
      ∀ fuel' ext, 2 * c.length ≤ fuel' + 1 → decFields fuel' prev (c ++ ext) = .ok (fs, ext)) := by
  induction fuel with
  | zero =>
    refine ⟨fun _ _ _ _ h => ?_, fun _ _ _ _ _ h => ?_, fun _ _ _ _ h => ?_⟩
    · rw [decVal] at h; cases h
    · rw [decList] at h; cases h
    · rw [decFields] at h; cases h
  | succ fuel ih =>
    obtain ⟨ih1, ih2, ih3⟩ := ih
    refine ⟨fun code bs v rest h => ?_, fun code n bs vs rest h => ?_, fun prev bs fs rest h => ?_⟩
    · -- values
      have key : ∀ f : List Byte → Res (TVal × List Byte), Local 1 f →
          (∀ fuel bs, decVal (fuel + 1) code bs = f bs) → ∃ c, bs = c ++ rest ∧ 1 ≤ c.length ∧
          ∀ fuel' ext, 2 * c.length ≤ fuel' → decVal fuel' code (c ++ ext) = .ok (v, ext) := by
        intro f hf he
        rw [he] at h
        obtain ⟨c, h1, h2, h3⟩ := hf _ _ _ h
        refine ⟨c, h1, h2, fun fuel' ext hfu => ?_⟩
        obtain ⟨k, rfl⟩ : ∃ k, fuel' = k + 1 := ⟨fuel' - 1, by omega⟩
        rw [he, h3]
      by_cases c1 : code = 1
      · subst c1
        exact key _ (local_readByte.seq (m := 0) fun b => local_readBool b) fun fuel bs => by rw [decVal]
      by_cases c2 : code = 2
      · subst c2
        exact key _ (local_readByte.seq (m := 0) fun b => local_readBool b) fun fuel bs => by rw [decVal]
      by_cases c3 : code = 3
      · subst c3
        exact key _ (local_readByte.map TVal.byte) fun fuel bs => by rw [decVal]
      by_cases c4 : code = 4
      · subst c4
        exact key _ ((local_readZvar 16).map TVal.i16) fun fuel bs => by rw [decVal]
      by_cases c5 : code = 5
      · subst c5
        exact key _ ((local_readZvar 32).map TVal.i32) fun fuel bs => by rw [decVal]
      by_cases c6 : code = 6
      · subst c6
        exact key _ ((local_readZvar 64).map TVal.i64) fun fuel bs => by rw [decVal]
      by_cases c7 : code = 7
      · subst c7
        refine key _ (fun bs a rest h => ?_) fun fuel bs => by rw [decVal]
        obtain ⟨c, h1, h2, h3⟩ := (local_readN 8).map (fun x => TVal.double (fromLe 64 x)) _ _ _ h
        exact ⟨c, h1, by omega, h3⟩
      by_cases c8 : code = 8
      · subst c8
        exact key _ (local_readUvar.seq (m := 0) fun n => fun bs a rest h => by
          obtain ⟨c, h1, h2, h3⟩ := (local_readN n).map TVal.binary _ _ _ h
          exact ⟨c, h1, by omega, h3⟩) fun fuel bs => by rw [decVal]
      by_cases c9 : code = 9
      · subst c9
        rw [decVal] at h
        obtain ⟨⟨⟨n, elem⟩, r⟩, h1, h2⟩ := bind_ok h
        obtain ⟨⟨vs, r'⟩, h3, h4⟩ := bind_ok h2
        cases h4
        obtain ⟨c, rfl, hc, he⟩ := local_readListHeader _ _ _ h1
        obtain ⟨c', rfl, he'⟩ := ih2 _ _ _ _ _ h3
        refine ⟨c ++ c', by simp, by simp; omega, fun fuel' ext hfu => ?_⟩
        rw [List.length_append] at hfu
        obtain ⟨k, rfl⟩ : ∃ k, fuel' = k + 1 := ⟨fuel' - 1, by omega⟩
        rw [decVal, List.append_assoc, he]
        simp only [Res.ok_bind]
        rw [he' k ext (by omega)]
        rfl
      by_cases c12 : code = 12
      · subst c12
        rw [decVal] at h
        obtain ⟨⟨fs, r⟩, h1, h2⟩ := bind_ok h
        cases h2
        obtain ⟨c, rfl, hc, he⟩ := ih3 _ _ _ _ h1
        refine ⟨c, rfl, hc, fun fuel' ext hfu => ?_⟩
        obtain ⟨k, rfl⟩ : ∃ k, fuel' = k + 1 := ⟨fuel' - 1, by omega⟩
        rw [decVal, he k ext (by omega)]
        rfl
      · exfalso
        simp only [decVal] at h
        cases h
    · cases n with
      | zero =>
        rw [decList] at h
        cases h
        refine ⟨[], rfl, fun fuel' ext hfu => ?_⟩
        obtain ⟨k, rfl⟩ : ∃ k, fuel' = k + 1 := ⟨fuel' - 1, by omega⟩
        rw [decList]
        rfl
      | succ n =>
        rw [decList] at h
        obtain ⟨⟨v, r⟩, h1, h2⟩ := bind_ok h
        obtain ⟨⟨vs', r'⟩, h3, h4⟩ := bind_ok h2
        cases h4
        obtain ⟨c, rfl, hc, he⟩ := ih1 _ _ _ _ h1
        obtain ⟨c', rfl, he'⟩ := ih2 _ _ _ _ _ h3
        refine ⟨c ++ c', by simp, fun fuel' ext hfu => ?_⟩
        rw [List.length_append] at hfu
        obtain ⟨k, rfl⟩ : ∃ k, fuel' = k + 1 := ⟨fuel' - 1, by omega⟩
        rw [decList, List.append_assoc, he k _ (by omega)]
        simp only [Res.ok_bind]
        rw [he' k ext (by omega)]
        rfl
    · rw [decFields] at h
      obtain ⟨⟨b, r⟩, h1, h2⟩ := bind_ok h
      obtain ⟨c, rfl, hc, he⟩ := local_readByte _ _ _ h1
      simp only at h2
      split at h2
      · next hb =>
        cases h2
        refine ⟨c, rfl, hc, fun fuel' ext hfu => ?_⟩
        obtain ⟨k, rfl⟩ : ∃ k, fuel' = k + 1 := ⟨fuel' - 1, by omega⟩
        rw [decFields, he]
        simp only [Res.ok_bind, if_pos hb]
      · next hb =>
        obtain ⟨⟨id, r2⟩, h3, h4⟩ := bind_ok h2
        obtain ⟨c2, rfl, hc2, he2⟩ := local_readId _ _ _ _ _ h3
        obtain ⟨⟨v, r3⟩, h5, h6⟩ := bind_ok h4
        obtain ⟨⟨fs', r4⟩, h7, h8⟩ := bind_ok h6
        cases h8
        have hval : ∃ c3, r2 = c3 ++ r3 ∧ ∀ fuel' ext, 2 * c3.length ≤ fuel' →
            orBool (b.toNat % 16) (c3 ++ ext) (decVal fuel' (b.toNat % 16) (c3 ++ ext)) = .ok (v, ext) := by
          simp only [orBool] at h5
          split at h5
          · next hc1 => cases h5; exact ⟨[], rfl, fun _ ext _ => by rw [orBool, if_pos hc1]; rfl⟩
          · next hc1 =>
            split at h5
            · next hc2 => cases h5; exact ⟨[], rfl, fun _ ext _ => by rw [orBool, if_neg hc1, if_pos hc2]; rfl⟩
            · next hc2 =>
              obtain ⟨c3, rfl, -, he3⟩ := ih1 _ _ _ _ h5
              exact ⟨c3, rfl, fun k ext hk => by rw [orBool, if_neg hc1, if_neg hc2, he3 k ext hk]⟩
        obtain ⟨c3, rfl, he3⟩ := hval
        obtain ⟨c4, rfl, hc4, he4⟩ := ih3 _ _ _ _ h7
        refine ⟨c ++ (c2 ++ (c3 ++ c4)), by simp, by simp; omega, fun fuel' ext hfu => ?_⟩
        simp only [List.length_append] at hfu
        obtain ⟨k, rfl⟩ : ∃ k, fuel' = k + 1 := ⟨fuel' - 1, by omega⟩
        rw [decFields, List.append_assoc, he]
        simp only [Res.ok_bind, if_neg hb]
        rw [List.append_assoc, he2]
        simp only [Res.ok_bind]
        rw [List.append_assoc, he3 k _ (by omega)]
        simp only [Res.ok_bind]
        rw [he4 k ext (by omega)]
        rfl

/-- All errors of the decoder are of the same kind. -/
theorem dec_err (fuel : Nat) :
    (∀ code bs e, decVal fuel code bs = .err e → e = .oos) ∧
    (∀ code n bs e, decList fuel code n bs = .err e → e = .oos) ∧
    (∀ prev bs e, decFields fuel prev bs = .err e → e = .oos) := by
  have hbind : ∀ {α β : Type} {x : Res α} {f : α → Res β}, (∀ e, x = .err e → e = .oos) →
      (∀ a e, f a = .err e → e = .oos) → ∀ e, (x >>= f) = .err e → e = .oos := by
    intro α β x f hx hf e h
    cases x with
    | ok a => exact hf a e h
    | err e' => cases h; exact hx _ rfl
    | panic => cases h
  have hok : ∀ {α : Type} (a : α) e, (.ok a : Res α) = .err e → e = .oos := fun _ _ h => by cases h
  have hbyte : ∀ bs e, readByte bs = .err e → e = .oos := by
    intro bs e h; cases bs <;> cases h; rfl
  have hN : ∀ n bs e, readN n bs = .err e → e = .oos := by
    intro n bs e h; rw [readN] at h; split at h <;> cases h; rfl
  have huvar : ∀ bs e, readUvar bs = .err e → e = .oos := by
    intro bs
    induction bs with
    | nil => intro e h; cases h; rfl
    | cons b bs ih =>
      intro e h
      rw [readUvar] at h
      split at h
      · cases h
      · exact hbind ih (fun _ => hok _) e h
  have hzvar : ∀ w bs e, readZvar w bs = .err e → e = .oos := fun w bs => hbind (huvar bs) fun _ => hok _
  have hlist : ∀ bs e, readListHeader bs = .err e → e = .oos := fun bs => hbind (hbyte bs) fun a e h => by
    simp only at h
    split at h
    · cases h
    · exact hbind (huvar _) (fun _ => hok _) e h
  have hbool : ∀ b bs e, readBool b bs = .err e → e = .oos := by
    intro b bs e h
    rw [readBool] at h
    split at h
    · cases h
    · split at h <;> cases h; rfl
  have hid : ∀ p d bs e, readId p d bs = .err e → e = .oos := by
    intro p d bs e h
    rw [readId] at h
    split at h
    · exact hzvar _ _ e h
    · cases h
  induction fuel with
  | zero =>
    refine ⟨fun _ _ _ h => ?_, fun _ _ _ _ h => ?_, fun _ _ _ h => ?_⟩
    · rw [decVal] at h; cases h; rfl
    · rw [decList] at h; cases h; rfl
    · rw [decFields] at h; cases h; rfl
  | succ fuel ih =>
    obtain ⟨ih1, ih2, ih3⟩ := ih
    refine ⟨fun code bs e h => ?_, fun code n bs e h => ?_, fun prev bs e h => ?_⟩
    · simp only [decVal] at h
      split at h
      · exact hbind (hbyte _) (fun _ => hbool _ _) e h
      · exact hbind (hbyte _) (fun _ => hbool _ _) e h
      · exact hbind (hbyte _) (fun _ => hok _) e h
      · exact hbind (hzvar _ _) (fun _ => hok _) e h
      · exact hbind (hzvar _ _) (fun _ => hok _) e h
      · exact hbind (hzvar _ _) (fun _ => hok _) e h
      · exact hbind (hN _ _) (fun _ => hok _) e h
      · exact hbind (huvar _) (fun _ => hbind (hN _ _) fun _ => hok _) e h
      · exact hbind (hlist _) (fun _ => hbind (ih2 _ _ _) fun _ => hok _) e h
      · exact hbind (ih3 _ _) (fun _ => hok _) e h
      · cases h; rfl
    · cases n with
      | zero => rw [decList] at h; cases h
      | succ n =>
        rw [decList] at h
        exact hbind (ih1 _ _) (fun _ => hbind (ih2 _ _ _) fun _ => hok _) e h
    · rw [decFields] at h
      refine hbind (hbyte _) (fun a e h => ?_) e h
      simp only at h
      split at h
      · cases h
      · refine hbind (hid _ _ _) (fun a e h => ?_) e h
        refine hbind (fun e h => ?_) (fun a e h => ?_) e h
        · rw [orBool] at h
          split at h
          · cases h
          · split at h
            · cases h
            · exact ih1 _ _ _ h
        · exact hbind (ih3 _ _) (fun _ => hok _) e h

/-- The compact protocol, a byte at a time, until there is a structure. -/
def protocolOf {T : Type} (r : Repr' T) : Protocol T where
  codec := codecOf r
  asks := fun _ bs => match decVal (2 * bs.length + 1) 12 bs with
    | .ok _ => 0
    | _ => 1

theorem protocolOf_lawful {T : Type} (r : Repr' T) : LawfulProtocol (protocolOf r) := by
  have hparse : ∀ max bs, (codecOf r).parse max bs = (match readStruct max bs with
      | (.ok v, rest) => (r.ofT v, rest)
      | (.err e, rest) => (.err e, rest)
      | (.panic, rest) => (.panic, rest)) := fun _ _ => rfl
  -- a structure, whatever follows
  have hext : ∀ (bs : List Byte) v rest, decVal (2 * bs.length + 1) 12 bs = .ok (v, rest) →
      ∃ c, bs = c ++ rest ∧ 1 ≤ c.length ∧
        ∀ ext, decVal (2 * (c ++ ext).length + 1) 12 (c ++ ext) = .ok (v, ext) := by
    intro bs v rest h
    obtain ⟨c, h1, h2, h3⟩ := (local_dec _).1 _ _ _ _ h
    exact ⟨c, h1, h2, fun ext => h3 _ _ (by rw [List.length_append]; omega)⟩
  -- nothing is left over
  have hrest : ∀ max bs, Asked ((protocolOf r).asks max) bs → ∀ v rest,
      decVal (2 * bs.length + 1) 12 bs = .ok (v, rest) → rest = [] := by
    intro max bs ha v rest h
    cases ha with
    | start =>
      obtain ⟨c, h1, h2, -⟩ := hext _ _ _ h
      have := congrArg List.length h1
      simp at this
      omega
    | @more bs ext ha h0 hl =>
      simp only [protocolOf] at h0 hl
      have hu : ∀ q, decVal (2 * bs.length + 1) 12 bs ≠ .ok q := by
        intro q hq
        rw [hq] at h0
        exact h0 rfl
      have hl1 : ext.length = 1 := by
        rw [hl]
        split
        · next q hq => exact absurd hq (hu q)
        · rfl
      obtain ⟨c, h1, h2, h3⟩ := hext _ _ _ h
      by_contra hne
      have hr : 0 < rest.length := List.length_pos_iff.2 hne
      have hlen := congrArg List.length h1
      simp only [List.length_append] at hlen
      have hpre : bs = c ++ rest.take (bs.length - c.length) := by
        have := congrArg (List.take bs.length) h1
        rw [List.take_left' rfl, List.take_append, List.take_of_length_le (by omega)] at this
        exact this
      have := h3 (rest.take (bs.length - c.length))
      rw [← hpre] at this
      exact hu _ this
  refine ⟨fun max bs ha h0 rest => ?_, fun max bs ext ha hlt => ?_⟩
  · simp only [protocolOf] at h0 ⊢
    cases hd : decVal (2 * bs.length + 1) 12 bs with
    | err e => rw [hd] at h0; cases h0
    | panic => rw [hd] at h0; cases h0
    | ok q =>
      obtain ⟨v, left⟩ := q
      have hl := hrest max bs ha v left hd
      subst hl
      obtain ⟨c, h1, h2, h3⟩ := hext _ _ _ hd
      rw [List.append_nil] at h1
      subst h1
      rw [hparse, hparse, readStruct, readStruct, hd, h3 rest]
      simp only
      by_cases hc : cost v ≤ max
      · simp only [if_pos hc]
        exact ⟨trivial, fun _ _ => trivial⟩
      · simp only [if_neg hc]
        exact ⟨trivial, fun _ h => by cases h⟩
  · simp only [protocolOf] at hlt ⊢
    have hu : ∀ q, decVal (2 * bs.length + 1) 12 bs ≠ .ok q := by
      intro q hq
      rw [hq] at hlt
      simp at hlt
    have hl : ext = [] := by
      apply List.length_eq_zero_iff.1
      split at hlt <;> omega
    subst hl
    rw [List.append_nil, hparse, readStruct]
    cases hd : decVal (2 * bs.length + 1) 12 bs with
    | ok q => exact absurd hd (hu q)
    | err e =>
      have := (dec_err _).1 _ _ _ hd
      subst this
      rfl
    | panic =>
      have := (takes_dec (2 * bs.length + 1)).1 12 bs
      rw [hd] at this
      exact this.elim

end Pq.Compact
