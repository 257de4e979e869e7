import Verif.Model.HybridRle
/-
The hybrid RLE decoder in builds with overflow checks (`ck`). `Model/HybridRle.lean` wraps the product of
`src/encoding/hybrid_rle/decoder.rs:50`; here it panics with overflow checks. The other functions are those
of `Model/HybridRle.lean`, over this iterator of runs. `C10_checked` compares the two.
-/
namespace Pq.Rle

/-- `src/encoding/hybrid_rle/decoder.rs:30-64` `Decoder::next`. -/
def Runs.nextCk (ck : Bool) (d : Runs) : Res (Option Encoded × Runs) :=
  if d.numBits = 0 then .ok (none, d)
  else if d.values = [] then .ok (none, d)
  else
    match Leb.decode d.values with
    | .err e => .err e
    | .panic => .panic
    | .ok (indicator, consumed) =>
      let values := d.values.drop consumed
      if values = [] then .ok (none, { d with values })
      else if indicator &&& 1#64 = 1#64 then
        if ck ∧ 2 ^ 64 ≤ (indicator >>> 1).toNat * d.numBits then .panic
        else
          let bytes := ((indicator >>> 1).toNat * d.numBits) % 2 ^ 64
          let bytes := min bytes values.length
          .ok (some (.bitpacked (values.take bytes)), { d with values := values.drop bytes })
      else
        let run_length := (indicator >>> 1).toNat
        match splitAt' values (ceil8 d.numBits) with
        | .ok (result, remaining) =>
          .ok (some (.rle result run_length), { d with values := remaining })
        | .err e => .err e
        | .panic => .panic

/-- `src/encoding/hybrid_rle/mod.rs:42-64` `read_next`. -/
def readNextCk (ck : Bool) (decoder : Runs) (remaining : Nat) : Res (State × Runs) :=
  match decoder.nextCk ck with
  | .err e => .err e
  | .panic => .panic
  | .ok (some (.bitpacked packed), d) =>
    let length := min (packed.length * 8 / d.numBits) remaining
    match Bitpack.Decoder.tryNew 4 packed d.numBits length with
    | .ok b => .ok (.bitpacked b, d)
    | .err e => .err e
    | .panic => .panic
  | .ok (some (.rle pack additional), d) =>
    if additional = 1 then .ok (.single (some (rleValue pack)), d)
    else .ok (.rle (rleValue pack) additional, d)
  | .ok (none, d) => .ok (.none, d)

/-- `src/encoding/hybrid_rle/mod.rs:68-77` `HybridRleDecoder::try_new`. -/
def Dec.tryNewCk (ck : Bool) (data : List Byte) (numBits numValues : Nat) : Res Dec :=
  match readNextCk ck { values := data, numBits } numValues with
  | .ok (state, decoder) => .ok { decoder, state, remaining := numValues }
  | .err e => .err e
  | .panic => .panic

/-- `src/encoding/hybrid_rle/mod.rs:83-109` `HybridRleDecoder::next`, see `Dec.nextFuel`. -/
def Dec.nextFuelCk (ck : Bool) : Nat → Dec → Res (Option U32 × Dec)
  | 0, _ => .panic
  | fuel + 1, d =>
    if d.remaining = 0 then .ok (none, d)
    else
      match d.state.next with
      | .err e => .err e
      | .panic => .panic
      | .ok (some result, state) =>
        .ok (some result, { d with state, remaining := d.remaining - 1 })
      | .ok (none, _) =>
        match readNextCk ck d.decoder d.remaining with
        | .err e => .err e
        | .panic => .panic
        | .ok (state, decoder) => Dec.nextFuelCk ck fuel { d with state, decoder }

/-- `src/encoding/hybrid_rle/mod.rs:83-109` `HybridRleDecoder::next`, see `Dec.next`. -/
def Dec.nextCk (ck : Bool) (d : Dec) : Res (Option U32 × Dec) :=
  Dec.nextFuelCk ck (d.decoder.values.length + 2) d

/-- `HybridRleDecoder::try_new(data, num_bits, num_values)?.collect::<Result<Vec<_>, _>>()`
(`src/encoding/hybrid_rle/mod.rs:68-109`). -/
def decodeCk (ck : Bool) (data : List Byte) (numBits numValues : Nat) : Res (List U32) :=
  match Dec.tryNewCk ck data numBits numValues with
  | .ok d => drain (Dec.nextCk ck) (numValues + 1) d
  | .err e => .err e
  | .panic => .panic

end Pq.Rle
