import Verif.Conform.Scan
import Verif.Conform.RJiter
import Verif.Conform.Pool
import Verif.Conform.Ddb
import Verif.Scan.Llm

/-!
# The examples in the READMEs

Those that are not among the tests: `/repo/rjiter/README.md`, `/repo/u8pool/README.md`, `/repo/scan_json/README.md`,
`/repo/examples/dynamodb/README.md`.
-/

namespace Verif.Conform
open Verif.RJiter Verif.Scan Verif.U8Pool

-- rjiter/README.md lines 34-57: the example, with the 16 bytes
example : passes (rj (sliceReader readmeExample) 16)
    [gives (·.nextObject F) (some (utf8 "name")), gives (·.nextStr F) (utf8 "John Doe"),
      gives (·.nextKey F) (some (utf8 "age")), gives (·.nextInt F) (utf8 "43"),
      gives (·.nextKey F) (some (utf8 "phones")), gives (·.nextArray F) (some 34),
      gives (·.knownStr F) (utf8 "+44 1234567"), gives (·.arrayStep F) (some 34),
      gives (·.knownStr F) (utf8 "+44 2345678"), gives (·.arrayStep F) none, gives (·.nextKey F) none,
      succeeds (·.finish F)] = true := by decide +kernel

/-- `cdata`, rjiter/README.md line 90. -/
def cdata : Bytes := utf8 "\\\"\\u4F60\\u597d\\\",\\n\\\\\\\\\\\\\\\\\\\\\\\\\\\\\\\\\\\\\\\\\\\\\\\\ how can I help you today?"

-- rjiter/README.md lines 87-119: the pass-through of long strings
#guard passes (rj (sliceReader ([34] ++ cdata ++ [34, 34] ++ cdata ++ [34])) 10)
    [writes (·.writeLongBytes F ·) cdata,
      writes (·.writeLongStr F ·) (utf8 "\"你好\",
\\\\\\\\\\\\\\\\\\\\\\\\ how can I help you today?"),
      succeeds (·.finish F)]

-- u8pool/README.md lines 7-39: the example; the metadata section has 128 bytes, the data section 872
#guard on (freshPool 1000) [puts "name", puts "Alice", puts "age", puts "30", lists ["name", "Alice", "age", "30"],
  listsPairs [("name", "Alice"), ("age", "30")], fun p => (p, p.data.length == 872 && p.data.take 14 == utf8 "nameAliceage30")]
-- u8pool/README.md lines 64-91: associated values
#guard on (freshPool 256) [putsA Point (point 42 100) "center point", hasA Point 0 (some (point 42 100, "center point"))]

/-- `scan_llm_output`, scan_json/README.md lines 124-161: what is in the writer at the end. -/
def readmeLlm (input : String) : Option Bytes :=
  match scan 100000 100000 (llm 100000) ⟨[utf8 "data:", utf8 "DONE"], false⟩ ⟨rj (sliceReader (utf8 input)) 32, [], pool 512 20⟩ with
  | (st, .ok ()) => some st.baton
  | _ => none

-- scan_json/README.md: the first sample
#guard readmeLlm "{
  \"id\": \"chatcmpl-Ahpq4nZeP9mESaKsCVdmZdK96IrUH\",
  \"object\": \"chat.completion\",
  \"created\": 1735010736,
  \"model\": \"gpt-4o-mini-2024-07-18\",
  \"choices\": [
    {
      \"index\": 0,
      \"message\": {
        \"role\": \"assistant\",
        \"content\": \"Hello! How can I assist you today?\",
        \"refusal\": null
      },
      \"logprobs\": null,
      \"finish_reason\": \"stop\"
    }
  ],
  \"usage\": {
    \"prompt_tokens\": 9,
    \"completion_tokens\": 10,
    \"total_tokens\": 19,
    \"prompt_tokens_details\": {
      \"cached_tokens\": 0,
      \"audio_tokens\": 0
    },
    \"completion_tokens_details\": {
      \"reasoning_tokens\": 0,
      \"audio_tokens\": 0,
      \"accepted_prediction_tokens\": 0,
      \"rejected_prediction_tokens\": 0
    }
  },
  \"system_fingerprint\": \"fp_0aa8d3e20b\"
}" == some (utf8 "(new message)\nHello! How can I assist you today?\n")

-- scan_json/README.md: the streaming version
#guard readmeLlm "
data: {\"choices\":[{\"index\":0,\"delta\":{\"role\":\"assistant\",\"content\":\"\",\"refusal\":null},\"logprobs\":null,\"finish_reason\":null}],\"id\":\"chatcmpl-AgMB1khICnwswjgqIl2X2jr587Nep\",\"object\":\"chat.completion.chunk\",\"created\":1734658387,\"model\":\"gpt-4o-mini-2024-07-18\",\"system_fingerprint\":\"fp_d02d531b47\"}

data: {\"choices\":[{\"index\":0,\"delta\":{\"content\":\"Hello\"},\"logprobs\":null,\"finish_reason\":null}],\"id\":\"chatcmpl-AgMB1khICnwswjgqIl2X2jr587Nep\",\"object\":\"chat.completion.chunk\",\"created\":1734658387,\"model\":\"gpt-4o-mini-2024-07-18\",\"system_fingerprint\":\"fp_d02d531b47\"}

data: {\"choices\":[{\"index\":0,\"delta\":{\"content\":\"!\"},\"logprobs\":null,\"finish_reason\":null}],\"id\":\"chatcmpl-AgMB1khICnwswjgqIl2X2jr587Nep\",\"object\":\"chat.completion.chunk\",\"created\":1734658387,\"model\":\"gpt-4o-mini-2024-07-18\",\"system_fingerprint\":\"fp_d02d531b47\"}

data: {\"choices\":[{\"index\":0,\"delta\":{\"content\":\" How\"},\"logprobs\":null,\"finish_reason\":null}],\"id\":\"chatcmpl-AgMB1khICnwswjgqIl2X2jr587Nep\",\"object\":\"chat.completion.chunk\",\"created\":1734658387,\"model\":\"gpt-4o-mini-2024-07-18\",\"system_fingerprint\":\"fp_d02d531b47\"}

data: {\"choices\":[{\"index\":0,\"delta\":{\"content\":\" can\"},\"logprobs\":null,\"finish_reason\":null}],\"id\":\"chatcmpl-AgMB1khICnwswjgqIl2X2jr587Nep\",\"object\":\"chat.completion.chunk\",\"created\":1734658387,\"model\":\"gpt-4o-mini-2024-07-18\",\"system_fingerprint\":\"fp_d02d531b47\"}

data: {\"choices\":[{\"index\":0,\"delta\":{\"content\":\" I\"},\"logprobs\":null,\"finish_reason\":null}],\"id\":\"chatcmpl-AgMB1khICnwswjgqIl2X2jr587Nep\",\"object\":\"chat.completion.chunk\",\"created\":1734658387,\"model\":\"gpt-4o-mini-2024-07-18\",\"system_fingerprint\":\"fp_d02d531b47\"}

data: {\"choices\":[{\"index\":0,\"delta\":{\"content\":\" assist\"},\"logprobs\":null,\"finish_reason\":null}],\"id\":\"chatcmpl-AgMB1khICnwswjgqIl2X2jr587Nep\",\"object\":\"chat.completion.chunk\",\"created\":1734658387,\"model\":\"gpt-4o-mini-2024-07-18\",\"system_fingerprint\":\"fp_d02d531b47\"}

data: {\"choices\":[{\"index\":0,\"delta\":{\"content\":\" you\"},\"logprobs\":null,\"finish_reason\":null}],\"id\":\"chatcmpl-AgMB1khICnwswjgqIl2X2jr587Nep\",\"object\":\"chat.completion.chunk\",\"created\":1734658387,\"model\":\"gpt-4o-mini-2024-07-18\",\"system_fingerprint\":\"fp_d02d531b47\"}

data: {\"choices\":[{\"index\":0,\"delta\":{\"content\":\" today\"},\"logprobs\":null,\"finish_reason\":null}],\"id\":\"chatcmpl-AgMB1khICnwswjgqIl2X2jr587Nep\",\"object\":\"chat.completion.chunk\",\"created\":1734658387,\"model\":\"gpt-4o-mini-2024-07-18\",\"system_fingerprint\":\"fp_d02d531b47\"}

data: {\"choices\":[{\"index\":0,\"delta\":{\"content\":\"?\"},\"logprobs\":null,\"finish_reason\":null}],\"id\":\"chatcmpl-AgMB1khICnwswjgqIl2X2jr587Nep\",\"object\":\"chat.completion.chunk\",\"created\":1734658387,\"model\":\"gpt-4o-mini-2024-07-18\",\"system_fingerprint\":\"fp_d02d531b47\"}

data: {\"choices\":[{\"index\":0,\"delta\":{},\"logprobs\":null,\"finish_reason\":\"stop\"}],\"id\":\"chatcmpl-AgMB1khICnwswjgqIl2X2jr587Nep\",\"object\":\"chat.completion.chunk\",\"created\":1734658387,\"model\":\"gpt-4o-mini-2024-07-18\",\"system_fingerprint\":\"fp_d02d531b47\"}

data: [DONE]
" == some (utf8 "Hello! How can I assist you today?")

-- examples/dynamodb/README.md
#guard fromDdb "{\"Item\":{\"name\":{\"S\":\"Alice\"},\"age\":{\"N\":\"30\"}}}" == some (utf8 "{\"name\":\"Alice\",\"age\":30}\n")
#guard toDdb "{\"name\":\"Alice\",\"age\":30}\n" true ==
  some (utf8 "{\"Item\":{\"name\":{\"S\":\"Alice\"},\"age\":{\"N\":\"30\"}}}\n")
#guard toDdb "{\"name\":\"Alice\",\"age\":30}\n" false == some (utf8 "{\"name\":{\"S\":\"Alice\"},\"age\":{\"N\":\"30\"}}\n")
-- the two documents under "What is DynamoDB JSON?"; the output is without the line breaks
#guard fromDdb "{
  \"Item\": {
    \"Id\": { \"N\": \"103\" },
    \"Title\": { \"S\": \"Book 103 Title\" },
    \"Price\": { \"N\": \"2000\" },
    \"Available\": { \"BOOL\": true }
  }
}
" ==
  some (utf8 "{\"Id\":103,\"Title\":\"Book 103 Title\",\"Price\":2000,\"Available\":true}\n")

end Verif.Conform
