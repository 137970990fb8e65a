import Verif.Model.FrameHeaders

/-!
# What a frame says about itself

/repo/src/http/http2/frame/frame.rs:78-132 and the remaining setters of flag.rs.
-/

namespace Webparse

/-- src/http/http2/frame/flag.rs:61-63 (`unset_end_headers`). -/
def flagUnsetEndHeaders (f : UInt8) : UInt8 := f &&& ~~~0x4
/-- src/http/http2/frame/flag.rs:70-72 (`set_padded`). -/
def flagSetPadded (f : UInt8) : UInt8 := f ||| 0x8
/-- src/http/http2/frame/flag.rs:73-75 (`unset_padded`). -/
def flagUnsetPadded (f : UInt8) : UInt8 := f &&& ~~~0x8
/-- src/http/http2/frame/flag.rs:35-38 (`Flag::load`). -/
def flagLoad (f : UInt8) : UInt8 := f ||| 0x1

/-- src/http/http2/frame/frame.rs:78-90 (`Frame::stream_id`). -/
def Frame.streamIdOf : Frame → Nat
  | .data f => f.streamId
  | .headers f => f.streamId
  | .priority _ => 0
  | .pushPromise f => f.streamId
  | .settings _ => 0
  | .ping _ => 0
  | .goAway _ => 0
  | .windowUpdate f => f.streamId
  | .reset f => f.streamId

/-- src/http/http2/frame/frame.rs:92-104 (`Frame::flags`). -/
def Frame.flagsOf : Frame → UInt8
  | .data f => f.flags
  | .headers f => f.flags
  | .priority _ => 0
  | .pushPromise f => f.flags
  | .settings f => f.flags
  | .ping _ => 0
  | .goAway _ => 0
  | .windowUpdate _ => 0
  | .reset _ => 0

/-- src/http/http2/frame/frame.rs:106-111 (`Frame::is_header`). -/
def Frame.isHeader : Frame → Bool
  | .headers _ => true
  | _ => false

/-- src/http/http2/frame/frame.rs:113-118 (`Frame::is_data`). -/
def Frame.isData : Frame → Bool
  | .data _ => true
  | _ => false

/-- src/http/http2/frame/frame.rs:120-125 (`Frame::is_end_headers`). -/
def Frame.isEndHeaders : Frame → Bool
  | .headers f => flagIsEndHeaders f.flags
  | _ => false

/-- src/http/http2/frame/frame.rs:127-134 (`Frame::is_end_stream`). -/
def Frame.isEndStream : Frame → Bool
  | .headers f => flagIsEndStream f.flags
  | .data f => flagIsEndStream f.flags
  | _ => false

end Webparse
