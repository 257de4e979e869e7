import Verif.Model.ThriftCompact
import Verif.Spec.Thrift
import Verif.Lemmas.Bits
/-
The thrift compact protocol is a lawful and sane codec.
-/
namespace Pq.Compact

/-! ### varints -/

theorem readUvar_uvarAux (fuel n : Nat) (rest : List Byte) (h : n < fuel) :
    readUvar (uvarAux fuel n ++ rest) = .ok (n, rest) := by
  induction fuel generalizing n with
  | zero => omega
  | succ fuel ih =>
    rw [uvarAux]
    by_cases h1 : n < 128
    · rw [if_pos h1]
      have : (BitVec.ofNat 8 n).toNat = n := by
        rw [BitVec.toNat_ofNat]; omega
      simp only [List.cons_append, List.nil_append, readUvar, this, if_pos h1]
    · rw [if_neg h1]
      have : (BitVec.ofNat 8 (n % 128 + 128)).toNat = n % 128 + 128 := by
        rw [BitVec.toNat_ofNat]; omega
      simp only [List.cons_append, readUvar, this]
      rw [if_neg (by omega), ih (n / 128) (by omega)]
      simp only [Res.ok_bind]
      congr 2
      omega

theorem readUvar_uvar (n : Nat) (rest : List Byte) : readUvar (uvar n ++ rest) = .ok (n, rest) :=
  readUvar_uvarAux _ _ _ (by omega)

theorem uvarAux_pos (fuel n : Nat) : 0 < (uvarAux (fuel + 1) n).length := by
  rw [uvarAux]; split <;> simp

theorem uvar_pos (n : Nat) : 0 < (uvar n).length := uvarAux_pos _ _

theorem readZvar_zvar {w : Nat} (x : BitVec w) (rest : List Byte) :
    readZvar w (zvar x ++ rest) = .ok (x, rest) := by
  simp only [readZvar, zvar, readUvar_uvar, Res.ok_bind]
  congr 2
  conv_rhs => rw [← BitVec.ofInt_toInt (x := x)]
  congr 1
  generalize x.toInt = i
  by_cases h : 0 ≤ i
  · rw [if_pos h, if_pos (by omega)]; omega
  · rw [if_neg h, if_neg (by omega)]; omega

theorem zvar_pos {w : Nat} (x : BitVec w) : 0 < (zvar x).length := uvar_pos _

theorem readN_append (x rest : List Byte) : readN x.length (x ++ rest) = .ok (x, rest) := by
  rw [readN, if_pos (by simp)]
  simp

/-! ### Values -/

mutual
/-- Lists have elements of the announced type. -/
def WF : TVal → Prop
  | .list elem vs => elem < 16 ∧ WFList elem vs
  | .struct fs => WFFields fs
  | _ => True
/-- See `WF`. -/
def WFList (elem : Nat) : TList → Prop
  | .nil => True
  | .cons v vs => elemCode v = elem ∧ WF v ∧ WFList elem vs
/-- See `WF`. -/
def WFFields : TFields → Prop
  | .nil => True
  | .cons _ v fs => WF v ∧ WFFields fs
end

mutual
/-- Recursion depth of the decoder. -/
def depVal : TVal → Nat
  | .list _ vs => depList vs + 1
  | .struct fs => depFields fs + 1
  | _ => 1
/-- See `depVal`. -/
def depList : TList → Nat
  | .nil => 1
  | .cons v vs => max (depVal v) (depList vs) + 1
/-- See `depVal`. -/
def depFields : TFields → Nat
  | .nil => 1
  | .cons _ v fs => max (depVal v) (depFields fs) + 1
end

theorem listHeader_pos (n elem : Nat) : 0 < (listHeader n elem).length := by
  rw [listHeader]; split <;> simp

theorem fieldHeader_pos (p i : BitVec 16) (c : Nat) : 0 < (fieldHeader p i c).length := by
  rw [fieldHeader]; split <;> simp

mutual
theorem depVal_le : ∀ v : TVal, depVal v ≤ 2 * (encVal v).length
  | .bool _ => by simp [depVal, encVal]
  | .byte _ => by simp [depVal, encVal]
  | .i16 x => by have := zvar_pos x; simp only [depVal, encVal]; omega
  | .i32 x => by have := zvar_pos x; simp only [depVal, encVal]; omega
  | .i64 x => by have := zvar_pos x; simp only [depVal, encVal]; omega
  | .double x => by
    simp only [depVal, encVal, Pq.toLe_length]; omega
  | .binary bs => by
    have := uvar_pos bs.length
    simp only [depVal, encVal, List.length_append]; omega
  | .list elem vs => by
    have h1 := listHeader_pos vs.length elem
    have h2 := depList_le vs
    simp only [depVal, encVal, List.length_append]; omega
  | .struct fs => by
    have h2 := depFields_le fs 0
    simp only [depVal, encVal]; omega
theorem depList_le : ∀ vs : TList, depList vs ≤ 2 * (encList vs).length + 1
  | .nil => by simp [depList]
  | .cons v vs => by
    have h1 := depVal_le v
    have h2 := depList_le vs
    have h3 : 0 < (encVal v).length := by
      have : 0 < depVal v := by cases v <;> simp [depVal]
      omega
    simp only [depList, encList, List.length_append]; omega
theorem depFields_le : ∀ (fs : TFields) (prev : BitVec 16),
    depFields fs + 1 ≤ 2 * (encFields prev fs).length
  | .nil, _ => by simp [depFields, encFields]
  | .cons id v fs, prev => by
    have h1 := depVal_le v
    have h2 := depFields_le fs id
    have h3 := fieldHeader_pos prev id (fieldCode v)
    cases v with
    | bool b =>
      simp only [depFields, encFields, List.length_append, depVal]; omega
    | _ =>
      simp only [depFields, encFields, List.length_append, isBool, Bool.false_eq_true, if_false]
      omega
end

theorem readListHeader_listHeader (n elem : Nat) (rest : List Byte) (h : elem < 16) :
    readListHeader (listHeader n elem ++ rest) = .ok ((n, elem), rest) := by
  rw [listHeader]
  by_cases h1 : n < 15
  · rw [if_pos h1]
    have : (BitVec.ofNat 8 (n * 16 + elem)).toNat = n * 16 + elem := by
      rw [BitVec.toNat_ofNat]; omega
    simp only [List.cons_append, List.nil_append, readListHeader, readByte, Res.ok_bind, this]
    rw [if_pos (by omega)]
    congr 3 <;> omega
  · rw [if_neg h1]
    have : (BitVec.ofNat 8 (240 + elem)).toNat = 240 + elem := by
      rw [BitVec.toNat_ofNat]; omega
    simp only [List.cons_append, readListHeader, readByte, Res.ok_bind, this]
    rw [if_neg (by omega), readUvar_uvar]
    simp only [Res.ok_bind]
    congr 3
    omega

theorem fieldCode_range (v : TVal) : 0 < fieldCode v ∧ fieldCode v < 16 := by
  cases v with
  | bool b => cases b <;> decide
  | _ => simp [fieldCode]

theorem fieldCode_eq (v : TVal) (h : ∀ b, v ≠ .bool b) :
    fieldCode v = elemCode v ∧ 3 ≤ fieldCode v := by
  cases v with
  | bool b => exact absurd rfl (h b)
  | _ => simp [fieldCode, elemCode]

theorem delta_eq (prev id : BitVec 16) (d : Nat) (h : id.toInt - prev.toInt = d) (hd : d < 15) :
    prev + BitVec.ofNat 16 d = id := by
  apply BitVec.eq_of_toInt_eq
  rw [BitVec.toInt_add]
  have h1 : (BitVec.ofNat 16 d).toInt = d := by
    rw [BitVec.toInt_eq_toNat_of_lt] <;> rw [BitVec.toNat_ofNat] <;> omega
  rw [h1, ← h, show prev.toInt + (id.toInt - prev.toInt) = id.toInt by omega]
  exact BitVec.toInt_bmod_cancel id

/-- The decoder after the field header. -/
theorem decFields_header (fuel : Nat) (prev id : BitVec 16) (code : Nat) (rest : List Byte)
    (h0 : 0 < code) (h1 : code < 16) :
    decFields (fuel + 1) prev (fieldHeader prev id code ++ rest) = (do
      let (v, bs) ← orBool code rest (decVal fuel code rest)
      let (fs, bs) ← decFields fuel id bs
      .ok (.cons id v fs, bs)) := by
  rw [fieldHeader]
  simp only
  split
  · rename_i hd
    obtain ⟨d, hd'⟩ : ∃ d : Nat, id.toInt - prev.toInt = d := ⟨_, (Int.toNat_of_nonneg (by omega)).symm⟩
    have hb : (BitVec.ofNat 8 ((id.toInt - prev.toInt).toNat * 16 + code)).toNat = d * 16 + code := by
      rw [BitVec.toNat_ofNat, hd']; simp only [Int.toNat_natCast]; omega
    simp only [List.cons_append, List.nil_append, decFields, readByte, Res.ok_bind, hb]
    have e1 : (d * 16 + code) % 16 = code := by omega
    have e2 : (d * 16 + code) / 16 = d := by omega
    rw [e1, e2, if_neg (by omega), readId, if_neg (by omega), delta_eq prev id d hd' (by omega)]
    rfl
  · have hb : (BitVec.ofNat 8 code).toNat = code := by
      rw [BitVec.toNat_ofNat]; omega
    simp only [List.cons_append, decFields, readByte, Res.ok_bind, hb]
    have e1 : code % 16 = code := by omega
    have e2 : code / 16 = 0 := by omega
    rw [e1, e2, if_neg (by omega), readId, if_pos rfl, readZvar_zvar]
    rfl

mutual
theorem decVal_encVal : ∀ (v : TVal) (fuel : Nat) (rest : List Byte), WF v → depVal v ≤ fuel →
    decVal fuel (elemCode v) (encVal v ++ rest) = .ok (v, rest)
  | _, 0, _, _, h => by rename_i v _ _; cases v <;> simp [depVal] at h
  | .bool b, fuel + 1, rest, _, _ => by
    cases b <;> simp [decVal, encVal, elemCode, readByte, readBool]
  | .byte x, fuel + 1, rest, _, _ => by
    simp [decVal, encVal, elemCode, fieldCode, readByte]
  | .i16 x, fuel + 1, rest, _, _ => by
    simp only [decVal, encVal, elemCode, fieldCode, readZvar_zvar, Res.ok_bind]
  | .i32 x, fuel + 1, rest, _, _ => by
    simp only [decVal, encVal, elemCode, fieldCode, readZvar_zvar, Res.ok_bind]
  | .i64 x, fuel + 1, rest, _, _ => by
    simp only [decVal, encVal, elemCode, fieldCode, readZvar_zvar, Res.ok_bind]
  | .double x, fuel + 1, rest, _, _ => by
    have h8 : readN 8 (toLe 8 x ++ rest) = .ok (toLe 8 x, rest) := by
      have := readN_append (toLe 8 x) rest
      rwa [Pq.toLe_length] at this
    have hx : fromLe 64 (toLe 8 x) = x := Pq.fromLe_toLe 8 x
    simp only [decVal, encVal, elemCode, fieldCode, h8, Res.ok_bind, hx]
  | .binary x, fuel + 1, rest, _, _ => by
    simp only [decVal, encVal, elemCode, fieldCode, List.append_assoc, readUvar_uvar, Res.ok_bind,
      readN_append]
  | .list elem vs, fuel + 1, rest, hw, hd => by
    simp only [WF] at hw
    simp only [depVal] at hd
    simp only [decVal, encVal, elemCode, fieldCode, List.append_assoc,
      readListHeader_listHeader _ _ _ hw.1, Res.ok_bind,
      decList_encList vs elem fuel rest hw.2 (by omega)]
  | .struct fs, fuel + 1, rest, hw, hd => by
    simp only [WF] at hw
    simp only [depVal] at hd
    simp only [decVal, encVal, elemCode, fieldCode, Res.ok_bind,
      decFields_encFields fs 0 fuel rest hw (by omega)]
theorem decList_encList : ∀ (vs : TList) (elem fuel : Nat) (rest : List Byte), WFList elem vs →
    depList vs ≤ fuel → decList fuel elem vs.length (encList vs ++ rest) = .ok (vs, rest)
  | vs, _, 0, _, _, h => by cases vs <;> simp [depList] at h
  | .nil, elem, fuel + 1, rest, _, _ => by simp [decList, encList, TList.length]
  | .cons v vs, elem, fuel + 1, rest, hw, hd => by
    simp only [WFList] at hw
    simp only [depList] at hd
    have h1 := decVal_encVal v fuel (encList vs ++ rest) hw.2.1 (by omega)
    rw [hw.1] at h1
    simp only [decList, encList, TList.length, List.append_assoc, h1, Res.ok_bind,
      decList_encList vs elem fuel rest hw.2.2 (by omega)]
theorem decFields_encFields : ∀ (fs : TFields) (prev : BitVec 16) (fuel : Nat) (rest : List Byte),
    WFFields fs → depFields fs ≤ fuel →
    decFields fuel prev (encFields prev fs ++ rest) = .ok (fs, rest)
  | fs, _, 0, _, _, h => by cases fs <;> simp [depFields] at h
  | .nil, prev, fuel + 1, rest, _, _ => by simp [decFields, encFields, readByte]
  | .cons id v fs, prev, fuel + 1, rest, hw, hd => by
    simp only [WFFields] at hw
    simp only [depFields] at hd
    have h2 := decFields_encFields fs id fuel rest hw.2 (by omega)
    have hr := fieldCode_range v
    simp only [encFields, List.append_assoc]
    rw [decFields_header _ _ _ _ _ hr.1 hr.2]
    by_cases hb : ∃ b, v = .bool b
    · obtain ⟨b, rfl⟩ := hb
      cases b <;> simp [fieldCode, h2, orBool, isBool]
    · have hb' : ∀ b, v ≠ .bool b := fun b e => hb ⟨b, e⟩
      obtain ⟨e1, e2⟩ := fieldCode_eq v hb'
      have h1 := decVal_encVal v fuel (encFields id fs ++ rest) hw.1 (by omega)
      have e3 : isBool v = false := by
        cases v with
        | bool b => exact absurd rfl (hb' b)
        | _ => rfl
      rw [orBool, if_neg (by omega), if_neg (by omega), e1, e3]
      simp only [Bool.false_eq_true, if_false]
      rw [h1]
      simp only [Res.ok_bind, h2]
end

theorem readStruct_encVal (fs : TFields) (max : Nat) (rest : List Byte) (hw : WFFields fs)
    (hc : costFields fs ≤ max) :
    readStruct max (encVal (.struct fs) ++ rest) = (.ok (.struct fs), rest) := by
  have h1 := depVal_le (.struct fs)
  have h2 := decVal_encVal (.struct fs) (2 * (encVal (.struct fs) ++ rest).length + 1) rest
    (by simpa only [WF] using hw) (by rw [List.length_append]; omega)
  simp only [elemCode, fieldCode] at h2
  have hc' : cost (.struct fs) ≤ max := by simpa only [cost] using hc
  rw [readStruct, h2]
  simp only [if_pos hc']

/-! ### Sanity -/

/-- What a reader leaves. -/
def Takes {α : Type} (n : Nat) (bs : List Byte) : Res (α × List Byte) → Prop
  | .ok (_, rest) => rest <:+ bs ∧ rest.length + n ≤ bs.length
  | .err _ => True
  | .panic => False

theorem Takes.bind {α β : Type} {n m : Nat} {bs : List Byte} {x : Res (α × List Byte)}
    {f : α × List Byte → Res (β × List Byte)} (hx : Takes n bs x)
    (hf : ∀ a rest, rest <:+ bs → Takes m rest (f (a, rest))) : Takes (n + m) bs (x >>= f) := by
  cases x with
  | ok p =>
    obtain ⟨a, rest⟩ := p
    have := hf a rest hx.1
    simp only [Res.ok_bind]
    cases h : f (a, rest) with
    | ok q =>
      obtain ⟨b, rest'⟩ := q
      rw [h] at this
      exact ⟨this.1.trans hx.1, by have h1 := this.2; have h2 := hx.2; omega⟩
    | err e => trivial
    | panic => rw [h] at this; exact this
  | err e => trivial
  | panic => exact hx

theorem Takes.mono {α : Type} {n m : Nat} {bs : List Byte} {x : Res (α × List Byte)}
    (h : Takes n bs x) (hm : m ≤ n) : Takes m bs x := by
  cases x with
  | ok p => exact ⟨h.1, by have := h.2; omega⟩
  | err e => trivial
  | panic => exact h

theorem takes_ok {α : Type} (a : α) (bs : List Byte) : Takes 0 bs (.ok (a, bs)) :=
  ⟨List.suffix_refl _, by omega⟩

theorem takes_readByte (bs : List Byte) : Takes 1 bs (readByte bs) := by
  cases bs with
  | nil => trivial
  | cons b bs => exact ⟨List.suffix_cons _ _, by simp⟩

theorem takes_readN (n : Nat) (bs : List Byte) : Takes 0 bs (readN n bs) := by
  rw [readN]
  split
  · exact ⟨List.drop_suffix _ _, by simp⟩
  · trivial

theorem takes_readUvar (bs : List Byte) : Takes 1 bs (readUvar bs) := by
  induction bs with
  | nil => trivial
  | cons b bs ih =>
    rw [readUvar]
    split
    · exact ⟨List.suffix_cons _ _, by simp⟩
    · cases h : readUvar bs with
      | ok p =>
        rw [h] at ih
        exact ⟨ih.1.trans (List.suffix_cons _ _), by have := ih.2; simp only [List.length_cons]; omega⟩
      | err e => trivial
      | panic => rw [h] at ih; exact ih

theorem takes_readZvar (w : Nat) (bs : List Byte) : Takes 1 bs (readZvar w bs) :=
  Takes.bind (m := 0) (takes_readUvar bs) fun _ _ _ => takes_ok _ _

theorem takes_readListHeader (bs : List Byte) : Takes 1 bs (readListHeader bs) := by
  refine Takes.bind (m := 0) (takes_readByte bs) fun b rest _ => ?_
  simp only
  split
  · exact takes_ok _ _
  · exact Takes.mono (Takes.bind (m := 0) (takes_readUvar rest) fun _ _ _ => takes_ok _ _)
      (Nat.zero_le (1 + 0))

theorem takes_readBool (b : Byte) (bs : List Byte) : Takes 0 bs (readBool b bs) := by
  rw [readBool]
  split
  · exact takes_ok _ _
  · split
    · exact takes_ok _ _
    · trivial

theorem takes_readId (p : BitVec 16) (d : Nat) (bs : List Byte) : Takes 0 bs (readId p d bs) := by
  rw [readId]
  split
  · exact (takes_readZvar _ _).mono (by omega)
  · exact takes_ok _ _

theorem takes_orBool {c : Nat} {bs : List Byte} {o : Res (TVal × List Byte)} (h : Takes 0 bs o) :
    Takes 0 bs (orBool c bs o) := by
  rw [orBool]
  split
  · exact takes_ok _ _
  · split
    · exact takes_ok _ _
    · exact h

theorem takes_dec (fuel : Nat) :
    (∀ code bs, Takes 1 bs (decVal fuel code bs)) ∧
    (∀ code n bs, Takes 0 bs (decList fuel code n bs)) ∧
    (∀ prev bs, Takes 1 bs (decFields fuel prev bs)) := by
  induction fuel with
  | zero =>
    refine ⟨fun _ _ => ?_, fun _ _ _ => ?_, fun _ _ => ?_⟩
    · rw [decVal]; trivial
    · rw [decList]; trivial
    · rw [decFields]; trivial
  | succ fuel ih =>
    obtain ⟨ih1, ih2, ih3⟩ := ih
    refine ⟨fun code bs => ?_, fun code n bs => ?_, fun prev bs => ?_⟩
    · simp only [decVal]
      split
      · exact Takes.bind (m := 0) (takes_readByte bs) fun _ _ _ => takes_readBool _ _
      · exact Takes.bind (m := 0) (takes_readByte bs) fun _ _ _ => takes_readBool _ _
      · exact Takes.bind (m := 0) (takes_readByte bs) fun _ _ _ => takes_ok _ _
      · exact Takes.bind (m := 0) (takes_readZvar _ bs) fun _ _ _ => takes_ok _ _
      · exact Takes.bind (m := 0) (takes_readZvar _ bs) fun _ _ _ => takes_ok _ _
      · exact Takes.bind (m := 0) (takes_readZvar _ bs) fun _ _ _ => takes_ok _ _
      · cases h : readN 8 bs with
        | ok p =>
          have h' := h
          rw [readN] at h'
          split at h'
          · have := takes_readN 8 bs
            rw [h] at this
            simp only [Res.ok_bind]
            refine ⟨this.1, ?_⟩
            injection h' with h'
            rw [← h']
            simp only [List.length_drop]
            omega
          · cases h'
        | err e => trivial
        | panic => have := takes_readN 8 bs; rw [h] at this; exact this
      · exact Takes.bind (m := 0) (takes_readUvar bs) fun n rest _ =>
          Takes.bind (m := 0) (takes_readN _ _) fun _ _ _ => takes_ok _ _
      · exact Takes.bind (m := 0) (takes_readListHeader bs) fun n rest _ =>
          Takes.bind (m := 0) (ih2 _ _ _) fun _ _ _ => takes_ok _ _
      · exact Takes.bind (m := 0) (ih3 _ _) fun _ _ _ => takes_ok _ _
      · trivial
    · cases n with
      | zero => rw [decList]; exact takes_ok _ _
      | succ n =>
        rw [decList]
        exact Takes.mono (n := 1 + (0 + 0)) (Takes.bind (ih1 _ _) fun v rest _ =>
          Takes.bind (ih2 _ _ _) fun _ _ _ => takes_ok _ _) (by omega)
    · rw [decFields]
      refine Takes.bind (m := 0) (takes_readByte bs) fun b rest _ => ?_
      simp only
      split
      · exact takes_ok _ _
      · exact Takes.mono (n := 0 + (0 + (1 + 0))) (Takes.bind (takes_readId _ _ _) fun _ _ _ =>
          Takes.bind (takes_orBool ((ih1 _ _).mono (by omega))) fun _ _ _ =>
          Takes.bind (ih3 _ _) fun _ _ _ => takes_ok _ _) (by omega)

/-! ### Representations -/

/-- What a representation has to satisfy. -/
structure Good {T : Type} (r : Repr' T) : Prop where
  back : ∀ x, r.ofT (r.toT x) = .ok x
  wf : ∀ x, WF (r.toT x)
  code : ∀ x, elemCode (r.toT x) = r.code
  small : r.code < 16
  safe : ∀ v, r.ofT v ≠ .panic

theorem codecOf_lawful {T : Type} {r : Repr' T} (h : Good r)
    (hs : ∀ x, ∃ fs, r.toT x = .struct fs) :
    Spec.LawfulCodec (codecOf r) (fun x => cost (r.toT x)) := by
  refine ⟨fun x rest max hm => ?_⟩
  obtain ⟨fs, hfs⟩ := hs x
  have hw := h.wf x
  simp only [codecOf]
  rw [hfs] at hw hm ⊢
  rw [readStruct_encVal fs max rest (by simpa only [WF] using hw) (by simpa only [cost] using hm)]
  simp only
  rw [← hfs, h.back]

theorem codecOf_sane {T : Type} {r : Repr' T} (h : Good r) : Spec.SaneCodec (codecOf r) := by
  have key : ∀ max bs, (codecOf r).parse max bs = (match readStruct max bs with
      | (.ok v, rest) => (r.ofT v, rest)
      | (.err e, rest) => (.err e, rest)
      | (.panic, rest) => (.panic, rest)) := fun _ _ => rfl
  have hd := fun bs => (takes_dec (2 * bs.length + 1)).1 12 bs
  refine ⟨fun max bs => ?_, fun max bs => ?_, fun max bs x => ?_⟩
  all_goals
    rw [key, readStruct]
    have := hd bs
    revert this
    generalize decVal (2 * bs.length + 1) 12 bs = res
    intro this
    cases res with
    | ok p =>
      obtain ⟨v, rest⟩ := p
      simp only
      split <;> rename_i heq <;> split at heq <;> simp only [Prod.mk.injEq] at heq
      all_goals try (cases heq.1; done)
      all_goals obtain ⟨e1, rfl⟩ := heq
      · first
        | exact h.safe _
        | exact this.1
        | (intro _; have := this.2; show rest.length < bs.length; omega)
      · first
        | exact this.1
        | (intro e; cases e)
    | err e => simp
    | panic => exact absurd this (by simp [Takes])

theorem find_fieldsOf (id : BitVec 16) (l : List (BitVec 16 × Option TVal))
    (h : (l.map Prod.fst).Nodup) : (fieldsOf l).find id = (l.lookup id).join := by
  induction l with
  | nil => rfl
  | cons p l ih =>
    obtain ⟨i, v⟩ := p
    simp only [List.map_cons, List.nodup_cons] at h
    rw [List.lookup_cons]
    have hno : i = id → (l.lookup id) = none := by
      rintro rfl
      rw [List.lookup_eq_none_iff]
      intro p hp
      have : p.1 ≠ i := fun e => h.1 (e ▸ List.mem_map_of_mem hp)
      simpa using this.symm
    cases v with
    | none =>
      simp only [fieldsOf]
      rw [ih h.2]
      by_cases e : i = id
      · simp [hno e, e]
      · have : (id == i) = false := by simpa using fun e' => e e'.symm
        rw [this]
    | some w =>
      simp only [fieldsOf, TFields.find]
      rw [ih h.2]
      by_cases e : i = id
      · simp [hno e, e]
      · have : (id == i) = false := by simpa using fun e' => e e'.symm
        rw [this, if_neg e]
        cases (l.lookup id).join <;> rfl

theorem wf_fieldsOf (l : List (BitVec 16 × Option TVal))
    (h : ∀ p ∈ l, ∀ v, p.2 = some v → WF v) : WFFields (fieldsOf l) := by
  induction l with
  | nil => simp [fieldsOf, WFFields]
  | cons p l ih =>
    obtain ⟨i, v⟩ := p
    have ih := ih fun q hq => h q (List.mem_cons_of_mem _ hq)
    cases v with
    | none => exact ih
    | some w => exact ⟨h _ List.mem_cons_self w rfl, ih⟩

theorem good_struct {T : Type} {fields : T → List (BitVec 16 × Option TVal)}
    {read : TFields → Res T} (hb : ∀ x, read (fieldsOf (fields x)) = .ok x)
    (hw : ∀ x, ∀ p ∈ fields x, ∀ v, p.2 = some v → WF v) (hs : ∀ fs, read fs ≠ .panic) :
    Good (rStruct fields read) := by
  refine ⟨hb, fun x => ?_, fun x => rfl, ?_, fun v => ?_⟩
  · simpa only [rStruct, WF] using wf_fieldsOf _ (hw x)
  · simp [rStruct]
  · cases v <;> simp [rStruct, hs]

theorem opt_find {T : Type} {r : Repr' T} (h : Good r) {fs : TFields} {id : BitVec 16} {x : Option T}
    (hf : fs.find id = x.map r.toT) : opt r fs id = .ok x := by
  rw [opt, hf]
  cases x with
  | none => rfl
  | some x => simp only [Option.map_some, h.back, Res.map']

theorem req_find {T : Type} {r : Repr' T} (h : Good r) {fs : TFields} {id : BitVec 16} {x : T}
    (hf : fs.find id = some (r.toT x)) : req r fs id = .ok x := by
  rw [req, hf]
  exact h.back x

theorem opt_safe {T : Type} {r : Repr' T} (h : Good r) (fs : TFields) (id : BitVec 16) :
    opt r fs id ≠ .panic := by
  rw [opt]
  split
  · simp
  · rename_i v _
    have := h.safe v
    cases hv : r.ofT v <;> simp_all [Res.map']

theorem req_safe {T : Type} {r : Repr' T} (h : Good r) (fs : TFields) (id : BitVec 16) :
    req r fs id ≠ .panic := by
  rw [req]
  split
  · simp
  · exact h.safe _

theorem safe_bind {α β : Type} {x : Res α} {f : α → Res β} (hx : x ≠ .panic)
    (hf : ∀ a, f a ≠ .panic) : (x >>= f) ≠ .panic := by
  cases x with
  | ok a => exact hf a
  | err e => simp
  | panic => exact absurd rfl hx

theorem good_bool : Good rBool :=
  ⟨fun _ => rfl, fun _ => trivial, fun _ => rfl, by decide, fun v => by cases v <;> simp [rBool]⟩
theorem good_byte : Good rByte :=
  ⟨fun _ => rfl, fun _ => trivial, fun _ => rfl, by decide, fun v => by cases v <;> simp [rByte]⟩
theorem good_i16 : Good rI16 :=
  ⟨fun _ => rfl, fun _ => trivial, fun _ => rfl, by decide, fun v => by cases v <;> simp [rI16]⟩
theorem good_i32 : Good rI32 :=
  ⟨fun _ => rfl, fun _ => trivial, fun _ => rfl, by decide, fun v => by cases v <;> simp [rI32]⟩
theorem good_i64 : Good rI64 :=
  ⟨fun _ => rfl, fun _ => trivial, fun _ => rfl, by decide, fun v => by cases v <;> simp [rI64]⟩
theorem good_binary : Good rBinary :=
  ⟨fun _ => rfl, fun _ => trivial, fun _ => rfl, by decide, fun v => by cases v <;> simp [rBinary]⟩

theorem stringOfBytes_stringBytes (s : String) : stringOfBytes (stringBytes s) = .ok s := by
  have h : (⟨⟨(stringBytes s).map UInt8.ofBitVec⟩⟩ : ByteArray) = s.toUTF8 := by
    rw [stringBytes, List.map_map]
    have : (UInt8.ofBitVec ∘ UInt8.toBitVec) = id := by funext x; rfl
    rw [this, List.map_id]
  rw [stringOfBytes, h]
  have h2 : s.toUTF8.IsValidUTF8 := s.isValidUTF8
  rw [String.fromUTF8?, dif_pos h2]
  rfl

theorem stringOfBytes_safe (bs : List Byte) : stringOfBytes bs ≠ .panic := by
  rw [stringOfBytes]; split <;> simp

theorem good_string : Good rString :=
  ⟨stringOfBytes_stringBytes, fun _ => trivial, fun _ => rfl, by decide,
    fun v => by cases v <;> simp [rString, stringOfBytes_safe]⟩

theorem good_list {T : Type} {r : Repr' T} (h : Good r) : Good (rList r) := by
  refine ⟨fun xs => ?_, fun xs => ?_, fun xs => rfl, by simp [rList], fun v => ?_⟩
  · simp only [rList]
    induction xs with
    | nil => rfl
    | cons x xs ih => simp only [listOf, ofList, h.back, Res.ok_bind, ih]
  · simp only [rList, WF]
    refine ⟨h.small, ?_⟩
    induction xs with
    | nil => simp [listOf, WFList]
    | cons x xs ih => exact ⟨h.code x, h.wf x, ih⟩
  · cases v with
    | list e vs =>
      simp only [rList]
      have : ∀ vs : TList, ofList r vs ≠ .panic := by
        intro vs
        induction vs using TList.rec (motive_1 := fun _ => True) (motive_3 := fun _ => True) with
        | nil => simp [ofList]
        | cons v vs _ ih =>
          rw [ofList]
          exact safe_bind (h.safe v) fun _ => safe_bind ih fun _ => by simp
        | _ => trivial
      exact this vs
    | _ => simp [rList]

/-- Evaluates a field of the structure. -/
macro "field" : tactic => `(tactic| (
  rw [find_fieldsOf _ _ (by simp only [List.map_cons, List.map_nil]; decide)]
  simp [List.lookup]))

theorem wf_some {T : Type} {r : Repr' T} (h : Good r) {x : T} {v : TVal}
    (hv : some (r.toT x) = some v) : WF v := by
  injection hv with hv
  exact hv ▸ h.wf x

theorem wf_map {T : Type} {r : Repr' T} (h : Good r) {x : Option T} {v : TVal}
    (hv : x.map r.toT = some v) : WF v := by
  cases x with
  | none => simp at hv
  | some x => exact wf_some h hv

theorem good_statistics : Good rStatistics := by
  refine good_struct (fun x => ?_) (fun x p hp v hv => ?_) (fun fs => ?_)
  · rw [opt_find good_binary (x := x.max) (by field)]; simp only [Res.ok_bind]
    rw [opt_find good_binary (x := x.min) (by field)]; simp only [Res.ok_bind]
    rw [opt_find good_i64 (x := x.nullCount) (by field)]; simp only [Res.ok_bind]
    rw [opt_find good_i64 (x := x.distinctCount) (by field)]; simp only [Res.ok_bind]
    rw [opt_find good_binary (x := x.maxValue) (by field)]; simp only [Res.ok_bind]
    rw [opt_find good_binary (x := x.minValue) (by field)]; simp only [Res.ok_bind]
  · simp only [List.mem_cons, List.not_mem_nil, or_false] at hp
    rcases hp with rfl | rfl | rfl | rfl | rfl | rfl
    · exact wf_map good_binary hv
    · exact wf_map good_binary hv
    · exact wf_map good_i64 hv
    · exact wf_map good_i64 hv
    · exact wf_map good_binary hv
    · exact wf_map good_binary hv
  · exact safe_bind (opt_safe good_binary _ _) fun _ => safe_bind (opt_safe good_binary _ _) fun _ => safe_bind (opt_safe good_i64 _ _) fun _ => safe_bind (opt_safe good_i64 _ _) fun _ => safe_bind (opt_safe good_binary _ _) fun _ => safe_bind (opt_safe good_binary _ _) fun _ => by simp

theorem good_dataPageHeader : Good rDataPageHeader := by
  refine good_struct (fun x => ?_) (fun x p hp v hv => ?_) (fun fs => ?_)
  · rw [req_find good_i32 (x := x.numValues) (by field)]; simp only [Res.ok_bind]
    rw [req_find good_i32 (x := x.encoding) (by field)]; simp only [Res.ok_bind]
    rw [req_find good_i32 (x := x.definitionLevelEncoding) (by field)]; simp only [Res.ok_bind]
    rw [req_find good_i32 (x := x.repetitionLevelEncoding) (by field)]; simp only [Res.ok_bind]
    rw [opt_find good_statistics (x := x.statistics) (by field)]; simp only [Res.ok_bind]
  · simp only [List.mem_cons, List.not_mem_nil, or_false] at hp
    rcases hp with rfl | rfl | rfl | rfl | rfl
    · exact wf_some good_i32 hv
    · exact wf_some good_i32 hv
    · exact wf_some good_i32 hv
    · exact wf_some good_i32 hv
    · exact wf_map good_statistics hv
  · exact safe_bind (req_safe good_i32 _ _) fun _ => safe_bind (req_safe good_i32 _ _) fun _ => safe_bind (req_safe good_i32 _ _) fun _ => safe_bind (req_safe good_i32 _ _) fun _ => safe_bind (opt_safe good_statistics _ _) fun _ => by simp

theorem good_dataPageHeaderV2 : Good rDataPageHeaderV2 := by
  refine good_struct (fun x => ?_) (fun x p hp v hv => ?_) (fun fs => ?_)
  · rw [req_find good_i32 (x := x.numValues) (by field)]; simp only [Res.ok_bind]
    rw [req_find good_i32 (x := x.numNulls) (by field)]; simp only [Res.ok_bind]
    rw [req_find good_i32 (x := x.numRows) (by field)]; simp only [Res.ok_bind]
    rw [req_find good_i32 (x := x.encoding) (by field)]; simp only [Res.ok_bind]
    rw [req_find good_i32 (x := x.definitionLevelsByteLength) (by field)]; simp only [Res.ok_bind]
    rw [req_find good_i32 (x := x.repetitionLevelsByteLength) (by field)]; simp only [Res.ok_bind]
    rw [opt_find good_bool (x := x.isCompressed) (by field)]; simp only [Res.ok_bind]
    rw [opt_find good_statistics (x := x.statistics) (by field)]; simp only [Res.ok_bind]
  · simp only [List.mem_cons, List.not_mem_nil, or_false] at hp
    rcases hp with rfl | rfl | rfl | rfl | rfl | rfl | rfl | rfl
    · exact wf_some good_i32 hv
    · exact wf_some good_i32 hv
    · exact wf_some good_i32 hv
    · exact wf_some good_i32 hv
    · exact wf_some good_i32 hv
    · exact wf_some good_i32 hv
    · exact wf_map good_bool hv
    · exact wf_map good_statistics hv
  · exact safe_bind (req_safe good_i32 _ _) fun _ => safe_bind (req_safe good_i32 _ _) fun _ => safe_bind (req_safe good_i32 _ _) fun _ => safe_bind (req_safe good_i32 _ _) fun _ => safe_bind (req_safe good_i32 _ _) fun _ => safe_bind (req_safe good_i32 _ _) fun _ => safe_bind (opt_safe good_bool _ _) fun _ => safe_bind (opt_safe good_statistics _ _) fun _ => by simp

theorem good_dictionaryPageHeader : Good rDictionaryPageHeader := by
  refine good_struct (fun x => ?_) (fun x p hp v hv => ?_) (fun fs => ?_)
  · rw [req_find good_i32 (x := x.numValues) (by field)]; simp only [Res.ok_bind]
    rw [req_find good_i32 (x := x.encoding) (by field)]; simp only [Res.ok_bind]
    rw [opt_find good_bool (x := x.isSorted) (by field)]; simp only [Res.ok_bind]
  · simp only [List.mem_cons, List.not_mem_nil, or_false] at hp
    rcases hp with rfl | rfl | rfl
    · exact wf_some good_i32 hv
    · exact wf_some good_i32 hv
    · exact wf_map good_bool hv
  · exact safe_bind (req_safe good_i32 _ _) fun _ => safe_bind (req_safe good_i32 _ _) fun _ => safe_bind (opt_safe good_bool _ _) fun _ => by simp

theorem good_pageHeader : Good rPageHeader := by
  refine good_struct (fun x => ?_) (fun x p hp v hv => ?_) (fun fs => ?_)
  · rw [req_find good_i32 (x := x.type) (by field)]; simp only [Res.ok_bind]
    rw [req_find good_i32 (x := x.uncompressedPageSize) (by field)]; simp only [Res.ok_bind]
    rw [req_find good_i32 (x := x.compressedPageSize) (by field)]; simp only [Res.ok_bind]
    rw [opt_find good_i32 (x := x.crc) (by field)]; simp only [Res.ok_bind]
    rw [opt_find good_dataPageHeader (x := x.dataPageHeader) (by field)]; simp only [Res.ok_bind]
    rw [opt_find good_dictionaryPageHeader (x := x.dictionaryPageHeader) (by field)]; simp only [Res.ok_bind]
    rw [opt_find good_dataPageHeaderV2 (x := x.dataPageHeaderV2) (by field)]; simp only [Res.ok_bind]
  · simp only [List.mem_cons, List.not_mem_nil, or_false] at hp
    rcases hp with rfl | rfl | rfl | rfl | rfl | rfl | rfl
    · exact wf_some good_i32 hv
    · exact wf_some good_i32 hv
    · exact wf_some good_i32 hv
    · exact wf_map good_i32 hv
    · exact wf_map good_dataPageHeader hv
    · exact wf_map good_dictionaryPageHeader hv
    · exact wf_map good_dataPageHeaderV2 hv
  · exact safe_bind (req_safe good_i32 _ _) fun _ => safe_bind (req_safe good_i32 _ _) fun _ => safe_bind (req_safe good_i32 _ _) fun _ => safe_bind (opt_safe good_i32 _ _) fun _ => safe_bind (opt_safe good_dataPageHeader _ _) fun _ => safe_bind (opt_safe good_dictionaryPageHeader _ _) fun _ => safe_bind (opt_safe good_dataPageHeaderV2 _ _) fun _ => by simp

theorem good_empty : Good rEmpty := by
  refine good_struct (fun x => rfl) (fun x p hp => by simp at hp) (fun fs => by simp)

theorem good_timeUnit : Good rTimeUnit := by
  refine good_struct (fun x => ?_) (fun x p hp v hv => ?_) (fun fs => ?_)
  · cases x <;> rfl
  · cases x <;> simp only [List.mem_cons, List.not_mem_nil, or_false] at hp <;> subst hp <;>
      exact wf_some good_empty hv
  · split <;> simp

theorem good_decimal : Good rDecimal := by
  refine good_struct (fun x => ?_) (fun x p hp v hv => ?_) (fun fs => ?_)
  · rw [req_find good_i32 (x := x.1) (by field)]; simp only [Res.ok_bind]
    rw [req_find good_i32 (x := x.2) (by field)]; simp only [Res.ok_bind]
  · simp only [List.mem_cons, List.not_mem_nil, or_false] at hp
    rcases hp with rfl | rfl
    · exact wf_some good_i32 hv
    · exact wf_some good_i32 hv
  · exact safe_bind (req_safe good_i32 _ _) fun _ => safe_bind (req_safe good_i32 _ _) fun _ => by simp

theorem good_time : Good rTime := by
  refine good_struct (fun x => ?_) (fun x p hp v hv => ?_) (fun fs => ?_)
  · rw [req_find good_bool (x := x.1) (by field)]; simp only [Res.ok_bind]
    rw [req_find good_timeUnit (x := x.2) (by field)]; simp only [Res.ok_bind]
  · simp only [List.mem_cons, List.not_mem_nil, or_false] at hp
    rcases hp with rfl | rfl
    · exact wf_some good_bool hv
    · exact wf_some good_timeUnit hv
  · exact safe_bind (req_safe good_bool _ _) fun _ => safe_bind (req_safe good_timeUnit _ _) fun _ => by simp

theorem good_int : Good rInt := by
  refine good_struct (fun x => ?_) (fun x p hp v hv => ?_) (fun fs => ?_)
  · rw [req_find good_byte (x := x.1) (by field)]; simp only [Res.ok_bind]
    rw [req_find good_bool (x := x.2) (by field)]; simp only [Res.ok_bind]
  · simp only [List.mem_cons, List.not_mem_nil, or_false] at hp
    rcases hp with rfl | rfl
    · exact wf_some good_byte hv
    · exact wf_some good_bool hv
  · exact safe_bind (req_safe good_byte _ _) fun _ => safe_bind (req_safe good_bool _ _) fun _ => by simp

theorem map'_safe {α β : Type} {x : Res α} {f : α → β} (h : x ≠ .panic) : x.map' f ≠ .panic := by
  cases x <;> simp_all [Res.map']

theorem good_logicalType : Good rLogicalType := by
  refine good_struct (fun x => ?_) (fun x p hp v hv => ?_) (fun fs => ?_)
  · cases x
    case decimal s p =>
      show (rDecimal.ofT (rDecimal.toT (s, p))).map' _ = _
      rw [good_decimal.back]; rfl
    case time a u =>
      show (rTime.ofT (rTime.toT (a, u))).map' _ = _
      rw [good_time.back]; rfl
    case timestamp a u =>
      show (rTime.ofT (rTime.toT (a, u))).map' _ = _
      rw [good_time.back]; rfl
    case integer a u =>
      show (rInt.ofT (rInt.toT (a, u))).map' _ = _
      rw [good_int.back]; rfl
    all_goals rfl
  · cases x <;> simp only [List.mem_cons, List.not_mem_nil, or_false] at hp <;> subst hp <;>
      first
      | exact wf_some good_empty hv
      | exact wf_some good_decimal hv
      | exact wf_some good_time hv
      | exact wf_some good_int hv
  · split <;>
      first
      | exact map'_safe (good_decimal.safe _)
      | exact map'_safe (good_time.safe _)
      | exact map'_safe (good_int.safe _)
      | simp

theorem good_schemaElement : Good rSchemaElement := by
  refine good_struct (fun x => ?_) (fun x p hp v hv => ?_) (fun fs => ?_)
  · rw [opt_find good_i32 (x := x.type) (by field)]; simp only [Res.ok_bind]
    rw [opt_find good_i32 (x := x.typeLength) (by field)]; simp only [Res.ok_bind]
    rw [opt_find good_i32 (x := x.repetitionType) (by field)]; simp only [Res.ok_bind]
    rw [req_find good_string (x := x.name) (by field)]; simp only [Res.ok_bind]
    rw [opt_find good_i32 (x := x.numChildren) (by field)]; simp only [Res.ok_bind]
    rw [opt_find good_i32 (x := x.convertedType) (by field)]; simp only [Res.ok_bind]
    rw [opt_find good_i32 (x := x.scale) (by field)]; simp only [Res.ok_bind]
    rw [opt_find good_i32 (x := x.precision) (by field)]; simp only [Res.ok_bind]
    rw [opt_find good_i32 (x := x.fieldId) (by field)]; simp only [Res.ok_bind]
    rw [opt_find good_logicalType (x := x.logicalType) (by field)]; simp only [Res.ok_bind]
  · simp only [List.mem_cons, List.not_mem_nil, or_false] at hp
    rcases hp with rfl | rfl | rfl | rfl | rfl | rfl | rfl | rfl | rfl | rfl
    · exact wf_map good_i32 hv
    · exact wf_map good_i32 hv
    · exact wf_map good_i32 hv
    · exact wf_some good_string hv
    · exact wf_map good_i32 hv
    · exact wf_map good_i32 hv
    · exact wf_map good_i32 hv
    · exact wf_map good_i32 hv
    · exact wf_map good_i32 hv
    · exact wf_map good_logicalType hv
  · exact safe_bind (opt_safe good_i32 _ _) fun _ => safe_bind (opt_safe good_i32 _ _) fun _ => safe_bind (opt_safe good_i32 _ _) fun _ => safe_bind (req_safe good_string _ _) fun _ => safe_bind (opt_safe good_i32 _ _) fun _ => safe_bind (opt_safe good_i32 _ _) fun _ => safe_bind (opt_safe good_i32 _ _) fun _ => safe_bind (opt_safe good_i32 _ _) fun _ => safe_bind (opt_safe good_i32 _ _) fun _ => safe_bind (opt_safe good_logicalType _ _) fun _ => by simp

theorem good_pageLocation : Good rPageLocation := by
  refine good_struct (fun x => ?_) (fun x p hp v hv => ?_) (fun fs => ?_)
  · rw [req_find good_i64 (x := x.offset) (by field)]; simp only [Res.ok_bind]
    rw [req_find good_i32 (x := x.compressedPageSize) (by field)]; simp only [Res.ok_bind]
    rw [req_find good_i64 (x := x.firstRowIndex) (by field)]; simp only [Res.ok_bind]
  · simp only [List.mem_cons, List.not_mem_nil, or_false] at hp
    rcases hp with rfl | rfl | rfl
    · exact wf_some good_i64 hv
    · exact wf_some good_i32 hv
    · exact wf_some good_i64 hv
  · exact safe_bind (req_safe good_i64 _ _) fun _ => safe_bind (req_safe good_i32 _ _) fun _ => safe_bind (req_safe good_i64 _ _) fun _ => by simp

theorem good_offsetIndex : Good rOffsetIndex := by
  refine good_struct (fun x => ?_) (fun x p hp v hv => ?_) (fun fs => ?_)
  · rw [req_find (good_list good_pageLocation) (x := x.pageLocations) (by field)]; simp only [Res.ok_bind]
  · simp only [List.mem_cons, List.not_mem_nil, or_false] at hp
    subst hp
    · exact wf_some (good_list good_pageLocation) hv
  · exact safe_bind (req_safe (good_list good_pageLocation) _ _) fun _ => by simp

theorem good_columnIndex : Good rColumnIndex := by
  refine good_struct (fun x => ?_) (fun x p hp v hv => ?_) (fun fs => ?_)
  · rw [req_find (good_list good_bool) (x := x.nullPages) (by field)]; simp only [Res.ok_bind]
    rw [req_find (good_list good_binary) (x := x.minValues) (by field)]; simp only [Res.ok_bind]
    rw [req_find (good_list good_binary) (x := x.maxValues) (by field)]; simp only [Res.ok_bind]
    rw [req_find good_i32 (x := x.boundaryOrder) (by field)]; simp only [Res.ok_bind]
    rw [opt_find (good_list good_i64) (x := x.nullCounts) (by field)]; simp only [Res.ok_bind]
  · simp only [List.mem_cons, List.not_mem_nil, or_false] at hp
    rcases hp with rfl | rfl | rfl | rfl | rfl
    · exact wf_some (good_list good_bool) hv
    · exact wf_some (good_list good_binary) hv
    · exact wf_some (good_list good_binary) hv
    · exact wf_some good_i32 hv
    · exact wf_map (good_list good_i64) hv
  · exact safe_bind (req_safe (good_list good_bool) _ _) fun _ => safe_bind (req_safe (good_list good_binary) _ _) fun _ => safe_bind (req_safe (good_list good_binary) _ _) fun _ => safe_bind (req_safe good_i32 _ _) fun _ => safe_bind (opt_safe (good_list good_i64) _ _) fun _ => by simp

theorem good_pageEncodingStats : Good rPageEncodingStats := by
  refine good_struct (fun x => ?_) (fun x p hp v hv => ?_) (fun fs => ?_)
  · rw [req_find good_i32 (x := x.pageType) (by field)]; simp only [Res.ok_bind]
    rw [req_find good_i32 (x := x.encoding) (by field)]; simp only [Res.ok_bind]
    rw [req_find good_i32 (x := x.count) (by field)]; simp only [Res.ok_bind]
  · simp only [List.mem_cons, List.not_mem_nil, or_false] at hp
    rcases hp with rfl | rfl | rfl
    · exact wf_some good_i32 hv
    · exact wf_some good_i32 hv
    · exact wf_some good_i32 hv
  · exact safe_bind (req_safe good_i32 _ _) fun _ => safe_bind (req_safe good_i32 _ _) fun _ => safe_bind (req_safe good_i32 _ _) fun _ => by simp

theorem good_keyValue : Good rKeyValue := by
  refine good_struct (fun x => ?_) (fun x p hp v hv => ?_) (fun fs => ?_)
  · rw [req_find good_string (x := x.key) (by field)]; simp only [Res.ok_bind]
    rw [opt_find good_string (x := x.value) (by field)]; simp only [Res.ok_bind]
  · simp only [List.mem_cons, List.not_mem_nil, or_false] at hp
    rcases hp with rfl | rfl
    · exact wf_some good_string hv
    · exact wf_map good_string hv
  · exact safe_bind (req_safe good_string _ _) fun _ => safe_bind (opt_safe good_string _ _) fun _ => by simp

theorem good_columnMetaData : Good rColumnMetaData := by
  refine good_struct (fun x => ?_) (fun x p hp v hv => ?_) (fun fs => ?_)
  · rw [req_find good_i32 (x := x.type) (by field)]; simp only [Res.ok_bind]
    rw [req_find (good_list good_i32) (x := x.encodings) (by field)]; simp only [Res.ok_bind]
    rw [req_find (good_list good_string) (x := x.pathInSchema) (by field)]; simp only [Res.ok_bind]
    rw [req_find good_i32 (x := x.codec) (by field)]; simp only [Res.ok_bind]
    rw [req_find good_i64 (x := x.numValues) (by field)]; simp only [Res.ok_bind]
    rw [req_find good_i64 (x := x.totalUncompressedSize) (by field)]; simp only [Res.ok_bind]
    rw [req_find good_i64 (x := x.totalCompressedSize) (by field)]; simp only [Res.ok_bind]
    rw [opt_find (good_list good_keyValue) (x := x.keyValueMetadata) (by field)]; simp only [Res.ok_bind]
    rw [req_find good_i64 (x := x.dataPageOffset) (by field)]; simp only [Res.ok_bind]
    rw [opt_find good_i64 (x := x.indexPageOffset) (by field)]; simp only [Res.ok_bind]
    rw [opt_find good_i64 (x := x.dictionaryPageOffset) (by field)]; simp only [Res.ok_bind]
    rw [opt_find good_statistics (x := x.statistics) (by field)]; simp only [Res.ok_bind]
    rw [opt_find (good_list good_pageEncodingStats) (x := x.encodingStats) (by field)]; simp only [Res.ok_bind]
    rw [opt_find good_i64 (x := x.bloomFilterOffset) (by field)]; simp only [Res.ok_bind]
  · simp only [List.mem_cons, List.not_mem_nil, or_false] at hp
    rcases hp with rfl | rfl | rfl | rfl | rfl | rfl | rfl | rfl | rfl | rfl | rfl | rfl | rfl | rfl
    · exact wf_some good_i32 hv
    · exact wf_some (good_list good_i32) hv
    · exact wf_some (good_list good_string) hv
    · exact wf_some good_i32 hv
    · exact wf_some good_i64 hv
    · exact wf_some good_i64 hv
    · exact wf_some good_i64 hv
    · exact wf_map (good_list good_keyValue) hv
    · exact wf_some good_i64 hv
    · exact wf_map good_i64 hv
    · exact wf_map good_i64 hv
    · exact wf_map good_statistics hv
    · exact wf_map (good_list good_pageEncodingStats) hv
    · exact wf_map good_i64 hv
  · exact safe_bind (req_safe good_i32 _ _) fun _ => safe_bind (req_safe (good_list good_i32) _ _) fun _ => safe_bind (req_safe (good_list good_string) _ _) fun _ => safe_bind (req_safe good_i32 _ _) fun _ => safe_bind (req_safe good_i64 _ _) fun _ => safe_bind (req_safe good_i64 _ _) fun _ => safe_bind (req_safe good_i64 _ _) fun _ => safe_bind (opt_safe (good_list good_keyValue) _ _) fun _ => safe_bind (req_safe good_i64 _ _) fun _ => safe_bind (opt_safe good_i64 _ _) fun _ => safe_bind (opt_safe good_i64 _ _) fun _ => safe_bind (opt_safe good_statistics _ _) fun _ => safe_bind (opt_safe (good_list good_pageEncodingStats) _ _) fun _ => safe_bind (opt_safe good_i64 _ _) fun _ => by simp

theorem good_columnChunk : Good rColumnChunk := by
  refine good_struct (fun x => ?_) (fun x p hp v hv => ?_) (fun fs => ?_)
  · rw [opt_find good_string (x := x.filePath) (by field)]; simp only [Res.ok_bind]
    rw [req_find good_i64 (x := x.fileOffset) (by field)]; simp only [Res.ok_bind]
    rw [opt_find good_columnMetaData (x := x.metaData) (by field)]; simp only [Res.ok_bind]
    rw [opt_find good_i64 (x := x.offsetIndexOffset) (by field)]; simp only [Res.ok_bind]
    rw [opt_find good_i32 (x := x.offsetIndexLength) (by field)]; simp only [Res.ok_bind]
    rw [opt_find good_i64 (x := x.columnIndexOffset) (by field)]; simp only [Res.ok_bind]
    rw [opt_find good_i32 (x := x.columnIndexLength) (by field)]; simp only [Res.ok_bind]
  · simp only [List.mem_cons, List.not_mem_nil, or_false] at hp
    rcases hp with rfl | rfl | rfl | rfl | rfl | rfl | rfl
    · exact wf_map good_string hv
    · exact wf_some good_i64 hv
    · exact wf_map good_columnMetaData hv
    · exact wf_map good_i64 hv
    · exact wf_map good_i32 hv
    · exact wf_map good_i64 hv
    · exact wf_map good_i32 hv
  · exact safe_bind (opt_safe good_string _ _) fun _ => safe_bind (req_safe good_i64 _ _) fun _ => safe_bind (opt_safe good_columnMetaData _ _) fun _ => safe_bind (opt_safe good_i64 _ _) fun _ => safe_bind (opt_safe good_i32 _ _) fun _ => safe_bind (opt_safe good_i64 _ _) fun _ => safe_bind (opt_safe good_i32 _ _) fun _ => by simp

theorem good_sortingColumn : Good rSortingColumn := by
  refine good_struct (fun x => ?_) (fun x p hp v hv => ?_) (fun fs => ?_)
  · rw [req_find good_i32 (x := x.columnIdx) (by field)]; simp only [Res.ok_bind]
    rw [req_find good_bool (x := x.descending) (by field)]; simp only [Res.ok_bind]
    rw [req_find good_bool (x := x.nullsFirst) (by field)]; simp only [Res.ok_bind]
  · simp only [List.mem_cons, List.not_mem_nil, or_false] at hp
    rcases hp with rfl | rfl | rfl
    · exact wf_some good_i32 hv
    · exact wf_some good_bool hv
    · exact wf_some good_bool hv
  · exact safe_bind (req_safe good_i32 _ _) fun _ => safe_bind (req_safe good_bool _ _) fun _ => safe_bind (req_safe good_bool _ _) fun _ => by simp

theorem good_rowGroup : Good rRowGroup := by
  refine good_struct (fun x => ?_) (fun x p hp v hv => ?_) (fun fs => ?_)
  · rw [req_find (good_list good_columnChunk) (x := x.columns) (by field)]; simp only [Res.ok_bind]
    rw [req_find good_i64 (x := x.totalByteSize) (by field)]; simp only [Res.ok_bind]
    rw [req_find good_i64 (x := x.numRows) (by field)]; simp only [Res.ok_bind]
    rw [opt_find (good_list good_sortingColumn) (x := x.sortingColumns) (by field)]; simp only [Res.ok_bind]
    rw [opt_find good_i64 (x := x.fileOffset) (by field)]; simp only [Res.ok_bind]
    rw [opt_find good_i64 (x := x.totalCompressedSize) (by field)]; simp only [Res.ok_bind]
    rw [opt_find good_i16 (x := x.ordinal) (by field)]; simp only [Res.ok_bind]
  · simp only [List.mem_cons, List.not_mem_nil, or_false] at hp
    rcases hp with rfl | rfl | rfl | rfl | rfl | rfl | rfl
    · exact wf_some (good_list good_columnChunk) hv
    · exact wf_some good_i64 hv
    · exact wf_some good_i64 hv
    · exact wf_map (good_list good_sortingColumn) hv
    · exact wf_map good_i64 hv
    · exact wf_map good_i64 hv
    · exact wf_map good_i16 hv
  · exact safe_bind (req_safe (good_list good_columnChunk) _ _) fun _ => safe_bind (req_safe good_i64 _ _) fun _ => safe_bind (req_safe good_i64 _ _) fun _ => safe_bind (opt_safe (good_list good_sortingColumn) _ _) fun _ => safe_bind (opt_safe good_i64 _ _) fun _ => safe_bind (opt_safe good_i64 _ _) fun _ => safe_bind (opt_safe good_i16 _ _) fun _ => by simp

theorem good_columnOrder : Good rColumnOrder := by
  refine good_struct (fun x => rfl) (fun x p hp v hv => ?_) (fun fs => ?_)
  · simp only [List.mem_cons, List.not_mem_nil, or_false] at hp
    subst hp
    exact wf_some good_empty hv
  · split <;> simp

theorem good_fileMetaData : Good rFileMetaData := by
  refine good_struct (fun x => ?_) (fun x p hp v hv => ?_) (fun fs => ?_)
  · rw [req_find good_i32 (x := x.version) (by field)]; simp only [Res.ok_bind]
    rw [req_find (good_list good_schemaElement) (x := x.schema) (by field)]; simp only [Res.ok_bind]
    rw [req_find good_i64 (x := x.numRows) (by field)]; simp only [Res.ok_bind]
    rw [req_find (good_list good_rowGroup) (x := x.rowGroups) (by field)]; simp only [Res.ok_bind]
    rw [opt_find (good_list good_keyValue) (x := x.keyValueMetadata) (by field)]; simp only [Res.ok_bind]
    rw [opt_find good_string (x := x.createdBy) (by field)]; simp only [Res.ok_bind]
    rw [opt_find (good_list good_columnOrder) (x := x.columnOrders) (by field)]; simp only [Res.ok_bind]
  · simp only [List.mem_cons, List.not_mem_nil, or_false] at hp
    rcases hp with rfl | rfl | rfl | rfl | rfl | rfl | rfl
    · exact wf_some good_i32 hv
    · exact wf_some (good_list good_schemaElement) hv
    · exact wf_some good_i64 hv
    · exact wf_some (good_list good_rowGroup) hv
    · exact wf_map (good_list good_keyValue) hv
    · exact wf_map good_string hv
    · exact wf_map (good_list good_columnOrder) hv
  · exact safe_bind (req_safe good_i32 _ _) fun _ => safe_bind (req_safe (good_list good_schemaElement) _ _) fun _ => safe_bind (req_safe good_i64 _ _) fun _ => safe_bind (req_safe (good_list good_rowGroup) _ _) fun _ => safe_bind (opt_safe (good_list good_keyValue) _ _) fun _ => safe_bind (opt_safe good_string _ _) fun _ => safe_bind (opt_safe (good_list good_columnOrder) _ _) fun _ => by simp

end Pq.Compact
