import Verif.Common
/-! Model of `util/oc_crc.c`. -/
namespace Verif.Crc

/-- `CRC64_POLYNOMIAL`, util/oc_crc.c:29. -/
def poly : BitVec 64 := 0xC96C5795D7870F42#64

/-- One iteration of the loop of `crc64_update`, util/oc_crc.c:36-40. -/
def shiftStep (crc : BitVec 64) : BitVec 64 :=
  if crc &&& 1#64 = 1#64 then (crc >>> 1) ^^^ poly else crc >>> 1

/-- `crc64_update`, util/oc_crc.c:31-43. -/
def update (crc : BitVec 64) (byte : UInt8) : BitVec 64 :=
  let crc := crc ^^^ (byte.toBitVec.setWidth 64)
  (List.range 8).foldl (fun c _ => shiftStep c) crc

/-- `oc_crc64`, util/oc_crc.c:45-52. -/
def crc64 (crc : BitVec 64) (buffer : List UInt8) : BitVec 64 :=
  buffer.foldl update crc

end Verif.Crc
