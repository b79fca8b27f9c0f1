import Verif.Prf.Proto
/-!
# The transcripts of the conversions in the PRF protocol

The functions of `Prf/Proto.lean` with the messages kept: `/repo/secure-join/Prf/ConvertToF3.cpp` and
`/repo/secure-join/Prf/AltModPrfProto.cpp`.
-/
namespace SecJoin
namespace AltMod
open Mod3

/-- `convert` of both parties, ConvertToF3.cpp 8-165 and 167-297, as `convert`: the corrections sent by the receiver, the differences sent by the
sender, and the outputs of sender and receiver. -/
def convertView (x0 x1 : List Block) (sendSegs : List (List TritS)) (recvSegs : List (List TritR)) :
    Res (List (List Block) × List (List (Block × Block)) × List (Block × Block) × List (Block × Block)) := do
  cvSendCheck x0 x0.length x0.length sendSegs
  cvRecvCheck x1 x1.length x1.length recvSegs
  throwIf (reqBits recvSegs != x1.length * 128)
  let cor ← cvRecv1 x1 recvSegs
  let (ds, y0) ← cvSend x0 sendSegs cor
  let y1 ← cvRecv2 x1 recvSegs ds
  .ok (cor, ds, y0, y1)

/-- `mod2Ole` of both parties, AltModPrfProto.cpp 565-820, as `mod2Ole`: the masked digits sent by the receiver, the replies, and the outputs of
sender and receiver. -/
def oleView (v u : List (Block × Block)) (sendSegs recvSegs : List (List Ole)) :
    Res (List (List (Block × Block)) × List (List (Block × Block)) × List Block × List Block) := do
  let ms ← oleRecv1 u recvSegs
  let (ts, z0) ← oleSend v sendSegs ms
  let z1 ← oleRecv2 u recvSegs ts
  .ok (ms, ts, z0, z1)

/-- `mod2OtF4` of both parties, AltModPrfProto.cpp 877-1156, as `mod2F4`, with the messages in the same way. -/
def f4View (v u : List (Block × Block)) (sendSegs : List (List F4S)) (recvSegs : List (List F4R)) :
    Res (List (List (Block × Block)) × List (List (Block × Block)) × List Block × List Block) := do
  let ms ← f4Recv1 u recvSegs
  let (ts, z0) ← f4Send v sendSegs ms
  let z1 ← f4Recv2 u recvSegs ts
  .ok (ms, ts, z0, z1)

end AltMod
end SecJoin
