import Verif.Words

/-!
  Model of lib/marshalling.c:203-225 and 1195-1223: aosl_encode_int16/32/64 and
  aosl_decode_int16/32/64, on a machine of either byte order.  The macros select the little-endian
  conversions when `__K_LITTLE_ENDIAN` is defined (byteorder/little_endian.h:12-13) and the big-endian
  conversions otherwise.
-/
namespace Verif.EncInt
open Verif.Words

/-- marshalling.c:1195-1198, macros 204 and 215 -/
def encode16 (e : Endian) (v : BitVec 16) : BitVec 16 :=
  match e with
  | .little => cpuToLe16 e v
  | .big => cpuToBe16 e v

/-- marshalling.c:1200-1203, macros 206 and 217 -/
def encode32 (e : Endian) (v : BitVec 32) : BitVec 32 :=
  match e with
  | .little => cpuToLe32 e v
  | .big => cpuToBe32 e v

/-- marshalling.c:1205-1208, macros 208 and 219 -/
def encode64 (e : Endian) (v : BitVec 64) : BitVec 64 :=
  match e with
  | .little => cpuToLe64 e v
  | .big => cpuToBe64 e v

/-- marshalling.c:1210-1213: the decoder applies the encoder's macro. -/
def decode16 (e : Endian) (v : BitVec 16) : BitVec 16 :=
  match e with
  | .little => cpuToLe16 e v
  | .big => cpuToBe16 e v

/-- marshalling.c:1215-1218 -/
def decode32 (e : Endian) (v : BitVec 32) : BitVec 32 :=
  match e with
  | .little => cpuToLe32 e v
  | .big => cpuToBe32 e v

/-- marshalling.c:1220-1223 -/
def decode64 (e : Endian) (v : BitVec 64) : BitVec 64 :=
  match e with
  | .little => cpuToLe64 e v
  | .big => cpuToBe64 e v

end Verif.EncInt
