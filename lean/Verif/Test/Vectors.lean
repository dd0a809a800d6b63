import Verif.Model.Rounds
import Verif.Model.Hex
import Verif.Model.Deterministic

/-!
# Tests of the model on the vectors in /repo/src/test_vectors

These are tests, not proofs: they check by evaluation that the model with the real SHA-256 reproduces the
vectors the repository is tested with.
-/

namespace Verif.Test

/-- Bytes of a hexadecimal string. -/
def hx (s : String) : Bytes :=
  match hexDecodeVec s.toUTF8.toList with
  | .ok b => b
  | _ => []

def hx32 (s : String) : Arr 32 :=
  if h : (hx s).length = 32 then ⟨hx s, h⟩ else ⟨List.replicate 32 0, rfl⟩

def okOpt {ε α : Type} : Res ε α → Option α
  | .ok a => some a
  | _ => none

def isErr {ε α : Type} : Res ε α → Bool
  | .err _ => true
  | _ => false

def pts (l : List String) : Option (List Point) := l.mapM fun s => parsePoint (hx s)

def ctxOf (l : List String) : Option KeyAggContext := do okOpt (KeyAggContext.new sha256 (← pts l))

def tweaksOf (l : List (String × Bool)) : Option (List (Scalar × Bool)) :=
  l.mapM fun t => do return (← parseScalar (hx t.1), t.2)

def ctxTw (l : List String) (t : List (String × Bool)) : Option KeyAggContext := do
  okOpt ((← ctxOf l).withTweaks (← tweaksOf t))

def pubs (l : List String) : Option (List PubNonce) := l.mapM fun s => okOpt (PubNonce.fromBytes (hx s))

/-! key_agg_vectors.json valid 0 -/
#guard ((ctxOf ["02F9308A019258C31049344F85F89D5229B531C845836F99B08601F113BCE036F9", "03DFF1D77F2A671C5F36183726DB2341BE58FEAE1DA2DECED843240F7B502BA659", "023590A94E768F8E1815C2F24B4D80A8E3149316C3518CE7B7AD338368D038CA66"]).map fun c => (xonly c.aggregatedPubkey.1).1) = some (hx "90539EEDE565F5D054F32CC0C220126889ED1E5D193BAF15AEF344FE59D4610C")

/-! key_agg_vectors.json valid 1 -/
#guard ((ctxOf ["023590A94E768F8E1815C2F24B4D80A8E3149316C3518CE7B7AD338368D038CA66", "03DFF1D77F2A671C5F36183726DB2341BE58FEAE1DA2DECED843240F7B502BA659", "02F9308A019258C31049344F85F89D5229B531C845836F99B08601F113BCE036F9"]).map fun c => (xonly c.aggregatedPubkey.1).1) = some (hx "6204DE8B083426DC6EAF9502D27024D53FC826BF7D2012148A0575435DF54B2B")

/-! key_agg_vectors.json valid 2 -/
#guard ((ctxOf ["02F9308A019258C31049344F85F89D5229B531C845836F99B08601F113BCE036F9", "02F9308A019258C31049344F85F89D5229B531C845836F99B08601F113BCE036F9", "02F9308A019258C31049344F85F89D5229B531C845836F99B08601F113BCE036F9"]).map fun c => (xonly c.aggregatedPubkey.1).1) = some (hx "B436E3BAD62B8CD409969A224731C193D051162D8C5AE8B109306127DA3AA935")

/-! key_agg_vectors.json valid 3 -/
#guard ((ctxOf ["02F9308A019258C31049344F85F89D5229B531C845836F99B08601F113BCE036F9", "02F9308A019258C31049344F85F89D5229B531C845836F99B08601F113BCE036F9", "03DFF1D77F2A671C5F36183726DB2341BE58FEAE1DA2DECED843240F7B502BA659", "03DFF1D77F2A671C5F36183726DB2341BE58FEAE1DA2DECED843240F7B502BA659"]).map fun c => (xonly c.aggregatedPubkey.1).1) = some (hx "69BC22BFA5D106306E48A20679DE1D7389386124D07571D0D872686028C26A3E")

/-! key_agg_vectors.json error 0 -/
#guard (pts ["02F9308A019258C31049344F85F89D5229B531C845836F99B08601F113BCE036F9", "020000000000000000000000000000000000000000000000000000000000000005"]).isNone

/-! key_agg_vectors.json error 1 -/
#guard (pts ["02F9308A019258C31049344F85F89D5229B531C845836F99B08601F113BCE036F9", "02FFFFFFFFFFFFFFFFFFFFFFFFFFFFFFFFFFFFFFFFFFFFFFFFFFFFFFFEFFFFFC30"]).isNone

/-! key_agg_vectors.json error 2 -/
#guard (pts ["04F9308A019258C31049344F85F89D5229B531C845836F99B08601F113BCE036F9", "02F9308A019258C31049344F85F89D5229B531C845836F99B08601F113BCE036F9"]).isNone

/-! key_agg_vectors.json error 3 -/
#guard (tweaksOf [("FFFFFFFFFFFFFFFFFFFFFFFFFFFFFFFEBAAEDCE6AF48A03BBFD25E8CD0364141", true)]).isNone

/-! key_agg_vectors.json error 4 -/
#guard (do let c ← ctxOf ["03935F972DA013F80AE011890FA89B67A27B7BE6CCB24D3274D18B2D4067F261A9"]; let t ← tweaksOf [("252E4BD67410A76CDF933D30EAA1608214037F1B105A013ECCD3C5C184A6110B", false)]; return isErr (c.withTweaks t)) = some true

/-! nonce_agg_vectors.json valid 0 -/
#guard ((pubs ["020151C80F435648DF67A22B749CD798CE54E0321D034B92B709B567D60A42E66603BA47FBC1834437B3212E89A84D8425E7BF12E0245D98262268EBDCB385D50641", "03FF406FFD8ADB9CD29877E4985014F66A59F6CD01C0E88CAA8E5F3166B1F676A60248C264CDD57D3C24D79990B0F865674EB62A0F9018277A95011B41BFC193B833"]).map fun l => (AggNonce.sum l).toBytes) = some (hx "035FE1873B4F2967F52FEA4A06AD5A8ECCBE9D0FD73068012C894E2E87CCB5804B024725377345BDE0E9C33AF3C43C0A29A9249F2F2956FA8CFEB55C8573D0262DC8")

/-! nonce_agg_vectors.json valid 1 -/
#guard ((pubs ["020151C80F435648DF67A22B749CD798CE54E0321D034B92B709B567D60A42E6660279BE667EF9DCBBAC55A06295CE870B07029BFCDB2DCE28D959F2815B16F81798", "03FF406FFD8ADB9CD29877E4985014F66A59F6CD01C0E88CAA8E5F3166B1F676A60379BE667EF9DCBBAC55A06295CE870B07029BFCDB2DCE28D959F2815B16F81798"]).map fun l => (AggNonce.sum l).toBytes) = some (hx "035FE1873B4F2967F52FEA4A06AD5A8ECCBE9D0FD73068012C894E2E87CCB5804B000000000000000000000000000000000000000000000000000000000000000000")

/-! nonce_agg_vectors.json error 0 -/
#guard (pubs ["020151C80F435648DF67A22B749CD798CE54E0321D034B92B709B567D60A42E66603BA47FBC1834437B3212E89A84D8425E7BF12E0245D98262268EBDCB385D50641", "04FF406FFD8ADB9CD29877E4985014F66A59F6CD01C0E88CAA8E5F3166B1F676A60248C264CDD57D3C24D79990B0F865674EB62A0F9018277A95011B41BFC193B833"]).isNone

/-! nonce_agg_vectors.json error 1 -/
#guard (pubs ["03FF406FFD8ADB9CD29877E4985014F66A59F6CD01C0E88CAA8E5F3166B1F676A60248C264CDD57D3C24D79990B0F865674EB62A0F9018277A95011B41BFC193B831", "03FF406FFD8ADB9CD29877E4985014F66A59F6CD01C0E88CAA8E5F3166B1F676A60248C264CDD57D3C24D79990B0F865674EB62A0F9018277A95011B41BFC193B833"]).isNone

/-! nonce_agg_vectors.json error 2 -/
#guard (pubs ["03FF406FFD8ADB9CD29877E4985014F66A59F6CD01C0E88CAA8E5F3166B1F676A602FFFFFFFFFFFFFFFFFFFFFFFFFFFFFFFFFFFFFFFFFFFFFFFFFFFFFFFEFFFFFC30", "03FF406FFD8ADB9CD29877E4985014F66A59F6CD01C0E88CAA8E5F3166B1F676A60248C264CDD57D3C24D79990B0F865674EB62A0F9018277A95011B41BFC193B833"]).isNone

/-! nonce_gen_vectors.json 0 -/
#guard (do
    let sk ← parseScalar (hx "0202020202020202020202020202020202020202020202020202020202020202")
    let q ← liftX (hx32 "0707070707070707070707070707070707070707070707070707070707070707")
    let n ← okOpt (SecNonce.generate (ε := Unit) sha256 (hx32 "0F0F0F0F0F0F0F0F0F0F0F0F0F0F0F0F0F0F0F0F0F0F0F0F0F0F0F0F0F0F0F0F") sk q
      (hx "0101010101010101010101010101010101010101010101010101010101010101") (hx "0808080808080808080808080808080808080808080808080808080808080808"))
    return (n.toBytes, n.publicNonce.toBytes)) =
  some ((hx "B114E502BEAA4E301DD08A50264172C84E41650E6CB726B410C0694D59EFFB6495B5CAF28D045B973D63E3C99A44B807BDE375FD6CB39E46DC4A511708D0E9D2024D4B6CD1361032CA9BD2AEB9D900AA4D45D9EAD80AC9423374C451A7254D0766").take 64, hx "02F7BE7089E8376EB355272368766B17E88E7DB72047D05E56AA881EA52B3B35DF02C29C8046FDD0DED4C7E55869137200FBDBFE2EB654267B6D7013602CAED3115A")

/-! nonce_gen_vectors.json 1 -/
#guard (do
    let sk ← parseScalar (hx "0202020202020202020202020202020202020202020202020202020202020202")
    let q ← liftX (hx32 "0707070707070707070707070707070707070707070707070707070707070707")
    let n ← okOpt (SecNonce.generate (ε := Unit) sha256 (hx32 "0F0F0F0F0F0F0F0F0F0F0F0F0F0F0F0F0F0F0F0F0F0F0F0F0F0F0F0F0F0F0F0F") sk q
      (hx "") (hx "0808080808080808080808080808080808080808080808080808080808080808"))
    return (n.toBytes, n.publicNonce.toBytes)) =
  some ((hx "E862B068500320088138468D47E0E6F147E01B6024244AE45EAC40ACE5929B9F0789E051170B9E705D0B9EB49049A323BBBBB206D8E05C19F46C6228742AA7A9024D4B6CD1361032CA9BD2AEB9D900AA4D45D9EAD80AC9423374C451A7254D0766").take 64, hx "023034FA5E2679F01EE66E12225882A7A48CC66719B1B9D3B6C4DBD743EFEDA2C503F3FD6F01EB3A8E9CB315D73F1F3D287CAFBB44AB321153C6287F407600205109")

/-! nonce_gen_vectors.json 2 -/
#guard (do
    let sk ← parseScalar (hx "0202020202020202020202020202020202020202020202020202020202020202")
    let q ← liftX (hx32 "0707070707070707070707070707070707070707070707070707070707070707")
    let n ← okOpt (SecNonce.generate (ε := Unit) sha256 (hx32 "0F0F0F0F0F0F0F0F0F0F0F0F0F0F0F0F0F0F0F0F0F0F0F0F0F0F0F0F0F0F0F0F") sk q
      (hx "2626262626262626262626262626262626262626262626262626262626262626262626262626") (hx "0808080808080808080808080808080808080808080808080808080808080808"))
    return (n.toBytes, n.publicNonce.toBytes)) =
  some ((hx "3221975ACBDEA6820EABF02A02B7F27D3A8EF68EE42787B88CBEFD9AA06AF3632EE85B1A61D8EF31126D4663A00DD96E9D1D4959E72D70FE5EBB6E7696EBA66F024D4B6CD1361032CA9BD2AEB9D900AA4D45D9EAD80AC9423374C451A7254D0766").take 64, hx "02E5BBC21C69270F59BD634FCBFA281BE9D76601295345112C58954625BF23793A021307511C79F95D38ACACFF1B4DA98228B77E65AA216AD075E9673286EFB4EAF3")

/-! sign_verify_vectors.json valid 0 -/
#guard (do
    let sk ← parseScalar (hx "7FB9E0E687ADA1EEBF7ECFE2F21E73EBDB51A7D450948DFE8D76D7F2D1007671")
    let sn ← okOpt (SecNonce.fromBytes (hx "508B81A611F100A6B2B6B29656590898AF488BCF2E1F55CF22E5CFB84421FE61FA27FD49B1D50085B481285E1CA205D55C82CC1B31FF5CD54A489829355901F703935F972DA013F80AE011890FA89B67A27B7BE6CCB24D3274D18B2D4067F261A9"))
    let c ← ctxOf ["03935F972DA013F80AE011890FA89B67A27B7BE6CCB24D3274D18B2D4067F261A9", "02F9308A019258C31049344F85F89D5229B531C845836F99B08601F113BCE036F9", "02DFF1D77F2A671C5F36183726DB2341BE58FEAE1DA2DECED843240F7B502BA661"]
    let an ← okOpt (AggNonce.fromBytes (hx "028465FCF0BBDBCF443AABCCE533D42B4B5A10966AC09A49655E8C42DAAB8FCD61037496A3CC86926D452CAFCFD55D25972CA1675D549310DE296BFF42F72EEEA8C9"))
    let pn ← pubs ["0337C87821AFD50A8644D820A8F3E02E499C931865C2360FB43D0A0D20DAFE07EA0287BF891D2A6DEAEBADC909352AA9405D1428C15F4B75F04DAE642A95C2548480", "0279BE667EF9DCBBAC55A06295CE870B07029BFCDB2DCE28D959F2815B16F817980279BE667EF9DCBBAC55A06295CE870B07029BFCDB2DCE28D959F2815B16F81798", "032DE2662628C90B03F5E720284EB52FF7D71F4284F627B68A853D78C78E1FFE9303E4C5524E83FFE1493B9077CF1CA6BEB2090C93D930321071AD40B2F44E599046"]
    let m := hx "F95466D086770E689964664219266FE5ED215C92AE20BAB5C9D79ADDDDF3C0CF"
    let s ← okOpt (signPartial sha256 c sk sn an m)
    let p ← pn[0]?
    let v := verifyPartial sha256 c s an (mulG sk) p m
    return ((serScalar s).1, v.isOk, decide (AggNonce.sum pn = an))) =
  some (hx "012ABBCB52B3016AC03AD82395A1A415C48B93DEF78718E62A7A90052FE224FB", true, true)

/-! sign_verify_vectors.json valid 1 -/
#guard (do
    let sk ← parseScalar (hx "7FB9E0E687ADA1EEBF7ECFE2F21E73EBDB51A7D450948DFE8D76D7F2D1007671")
    let sn ← okOpt (SecNonce.fromBytes (hx "508B81A611F100A6B2B6B29656590898AF488BCF2E1F55CF22E5CFB84421FE61FA27FD49B1D50085B481285E1CA205D55C82CC1B31FF5CD54A489829355901F703935F972DA013F80AE011890FA89B67A27B7BE6CCB24D3274D18B2D4067F261A9"))
    let c ← ctxOf ["02F9308A019258C31049344F85F89D5229B531C845836F99B08601F113BCE036F9", "03935F972DA013F80AE011890FA89B67A27B7BE6CCB24D3274D18B2D4067F261A9", "02DFF1D77F2A671C5F36183726DB2341BE58FEAE1DA2DECED843240F7B502BA661"]
    let an ← okOpt (AggNonce.fromBytes (hx "028465FCF0BBDBCF443AABCCE533D42B4B5A10966AC09A49655E8C42DAAB8FCD61037496A3CC86926D452CAFCFD55D25972CA1675D549310DE296BFF42F72EEEA8C9"))
    let pn ← pubs ["0279BE667EF9DCBBAC55A06295CE870B07029BFCDB2DCE28D959F2815B16F817980279BE667EF9DCBBAC55A06295CE870B07029BFCDB2DCE28D959F2815B16F81798", "0337C87821AFD50A8644D820A8F3E02E499C931865C2360FB43D0A0D20DAFE07EA0287BF891D2A6DEAEBADC909352AA9405D1428C15F4B75F04DAE642A95C2548480", "032DE2662628C90B03F5E720284EB52FF7D71F4284F627B68A853D78C78E1FFE9303E4C5524E83FFE1493B9077CF1CA6BEB2090C93D930321071AD40B2F44E599046"]
    let m := hx "F95466D086770E689964664219266FE5ED215C92AE20BAB5C9D79ADDDDF3C0CF"
    let s ← okOpt (signPartial sha256 c sk sn an m)
    let p ← pn[1]?
    let v := verifyPartial sha256 c s an (mulG sk) p m
    return ((serScalar s).1, v.isOk, decide (AggNonce.sum pn = an))) =
  some (hx "9FF2F7AAA856150CC8819254218D3ADEEB0535269051897724F9DB3789513A52", true, true)

/-! sign_verify_vectors.json valid 2 -/
#guard (do
    let sk ← parseScalar (hx "7FB9E0E687ADA1EEBF7ECFE2F21E73EBDB51A7D450948DFE8D76D7F2D1007671")
    let sn ← okOpt (SecNonce.fromBytes (hx "508B81A611F100A6B2B6B29656590898AF488BCF2E1F55CF22E5CFB84421FE61FA27FD49B1D50085B481285E1CA205D55C82CC1B31FF5CD54A489829355901F703935F972DA013F80AE011890FA89B67A27B7BE6CCB24D3274D18B2D4067F261A9"))
    let c ← ctxOf ["02F9308A019258C31049344F85F89D5229B531C845836F99B08601F113BCE036F9", "02DFF1D77F2A671C5F36183726DB2341BE58FEAE1DA2DECED843240F7B502BA661", "03935F972DA013F80AE011890FA89B67A27B7BE6CCB24D3274D18B2D4067F261A9"]
    let an ← okOpt (AggNonce.fromBytes (hx "028465FCF0BBDBCF443AABCCE533D42B4B5A10966AC09A49655E8C42DAAB8FCD61037496A3CC86926D452CAFCFD55D25972CA1675D549310DE296BFF42F72EEEA8C9"))
    let pn ← pubs ["0279BE667EF9DCBBAC55A06295CE870B07029BFCDB2DCE28D959F2815B16F817980279BE667EF9DCBBAC55A06295CE870B07029BFCDB2DCE28D959F2815B16F81798", "032DE2662628C90B03F5E720284EB52FF7D71F4284F627B68A853D78C78E1FFE9303E4C5524E83FFE1493B9077CF1CA6BEB2090C93D930321071AD40B2F44E599046", "0337C87821AFD50A8644D820A8F3E02E499C931865C2360FB43D0A0D20DAFE07EA0287BF891D2A6DEAEBADC909352AA9405D1428C15F4B75F04DAE642A95C2548480"]
    let m := hx "F95466D086770E689964664219266FE5ED215C92AE20BAB5C9D79ADDDDF3C0CF"
    let s ← okOpt (signPartial sha256 c sk sn an m)
    let p ← pn[2]?
    let v := verifyPartial sha256 c s an (mulG sk) p m
    return ((serScalar s).1, v.isOk, decide (AggNonce.sum pn = an))) =
  some (hx "FA23C359F6FAC4E7796BB93BC9F0532A95468C539BA20FF86D7C76ED92227900", true, true)

/-! sign_verify_vectors.json valid 3 -/
#guard (do
    let sk ← parseScalar (hx "7FB9E0E687ADA1EEBF7ECFE2F21E73EBDB51A7D450948DFE8D76D7F2D1007671")
    let sn ← okOpt (SecNonce.fromBytes (hx "508B81A611F100A6B2B6B29656590898AF488BCF2E1F55CF22E5CFB84421FE61FA27FD49B1D50085B481285E1CA205D55C82CC1B31FF5CD54A489829355901F703935F972DA013F80AE011890FA89B67A27B7BE6CCB24D3274D18B2D4067F261A9"))
    let c ← ctxOf ["03935F972DA013F80AE011890FA89B67A27B7BE6CCB24D3274D18B2D4067F261A9", "02F9308A019258C31049344F85F89D5229B531C845836F99B08601F113BCE036F9"]
    let an ← okOpt (AggNonce.fromBytes (hx "000000000000000000000000000000000000000000000000000000000000000000000000000000000000000000000000000000000000000000000000000000000000"))
    let pn ← pubs ["0337C87821AFD50A8644D820A8F3E02E499C931865C2360FB43D0A0D20DAFE07EA0287BF891D2A6DEAEBADC909352AA9405D1428C15F4B75F04DAE642A95C2548480", "0237C87821AFD50A8644D820A8F3E02E499C931865C2360FB43D0A0D20DAFE07EA0387BF891D2A6DEAEBADC909352AA9405D1428C15F4B75F04DAE642A95C2548480"]
    let m := hx "F95466D086770E689964664219266FE5ED215C92AE20BAB5C9D79ADDDDF3C0CF"
    let s ← okOpt (signPartial sha256 c sk sn an m)
    let p ← pn[0]?
    let v := verifyPartial sha256 c s an (mulG sk) p m
    return ((serScalar s).1, v.isOk, decide (AggNonce.sum pn = an))) =
  some (hx "AE386064B26105404798F75DE2EB9AF5EDA5387B064B83D049CB7C5E08879531", true, true)

/-! sign_verify_vectors.json valid 4 -/
#guard (do
    let sk ← parseScalar (hx "7FB9E0E687ADA1EEBF7ECFE2F21E73EBDB51A7D450948DFE8D76D7F2D1007671")
    let sn ← okOpt (SecNonce.fromBytes (hx "508B81A611F100A6B2B6B29656590898AF488BCF2E1F55CF22E5CFB84421FE61FA27FD49B1D50085B481285E1CA205D55C82CC1B31FF5CD54A489829355901F703935F972DA013F80AE011890FA89B67A27B7BE6CCB24D3274D18B2D4067F261A9"))
    let c ← ctxOf ["03935F972DA013F80AE011890FA89B67A27B7BE6CCB24D3274D18B2D4067F261A9", "02F9308A019258C31049344F85F89D5229B531C845836F99B08601F113BCE036F9", "02DFF1D77F2A671C5F36183726DB2341BE58FEAE1DA2DECED843240F7B502BA661"]
    let an ← okOpt (AggNonce.fromBytes (hx "028465FCF0BBDBCF443AABCCE533D42B4B5A10966AC09A49655E8C42DAAB8FCD61037496A3CC86926D452CAFCFD55D25972CA1675D549310DE296BFF42F72EEEA8C9"))
    let pn ← pubs ["0337C87821AFD50A8644D820A8F3E02E499C931865C2360FB43D0A0D20DAFE07EA0287BF891D2A6DEAEBADC909352AA9405D1428C15F4B75F04DAE642A95C2548480", "0279BE667EF9DCBBAC55A06295CE870B07029BFCDB2DCE28D959F2815B16F817980279BE667EF9DCBBAC55A06295CE870B07029BFCDB2DCE28D959F2815B16F81798", "032DE2662628C90B03F5E720284EB52FF7D71F4284F627B68A853D78C78E1FFE9303E4C5524E83FFE1493B9077CF1CA6BEB2090C93D930321071AD40B2F44E599046"]
    let m := hx ""
    let s ← okOpt (signPartial sha256 c sk sn an m)
    let p ← pn[0]?
    let v := verifyPartial sha256 c s an (mulG sk) p m
    return ((serScalar s).1, v.isOk, decide (AggNonce.sum pn = an))) =
  some (hx "D7D63FFD644CCDA4E62BC2BC0B1D02DD32A1DC3030E155195810231D1037D82D", true, true)

/-! sign_verify_vectors.json valid 5 -/
#guard (do
    let sk ← parseScalar (hx "7FB9E0E687ADA1EEBF7ECFE2F21E73EBDB51A7D450948DFE8D76D7F2D1007671")
    let sn ← okOpt (SecNonce.fromBytes (hx "508B81A611F100A6B2B6B29656590898AF488BCF2E1F55CF22E5CFB84421FE61FA27FD49B1D50085B481285E1CA205D55C82CC1B31FF5CD54A489829355901F703935F972DA013F80AE011890FA89B67A27B7BE6CCB24D3274D18B2D4067F261A9"))
    let c ← ctxOf ["03935F972DA013F80AE011890FA89B67A27B7BE6CCB24D3274D18B2D4067F261A9", "02F9308A019258C31049344F85F89D5229B531C845836F99B08601F113BCE036F9", "02DFF1D77F2A671C5F36183726DB2341BE58FEAE1DA2DECED843240F7B502BA661"]
    let an ← okOpt (AggNonce.fromBytes (hx "028465FCF0BBDBCF443AABCCE533D42B4B5A10966AC09A49655E8C42DAAB8FCD61037496A3CC86926D452CAFCFD55D25972CA1675D549310DE296BFF42F72EEEA8C9"))
    let pn ← pubs ["0337C87821AFD50A8644D820A8F3E02E499C931865C2360FB43D0A0D20DAFE07EA0287BF891D2A6DEAEBADC909352AA9405D1428C15F4B75F04DAE642A95C2548480", "0279BE667EF9DCBBAC55A06295CE870B07029BFCDB2DCE28D959F2815B16F817980279BE667EF9DCBBAC55A06295CE870B07029BFCDB2DCE28D959F2815B16F81798", "032DE2662628C90B03F5E720284EB52FF7D71F4284F627B68A853D78C78E1FFE9303E4C5524E83FFE1493B9077CF1CA6BEB2090C93D930321071AD40B2F44E599046"]
    let m := hx "2626262626262626262626262626262626262626262626262626262626262626262626262626"
    let s ← okOpt (signPartial sha256 c sk sn an m)
    let p ← pn[0]?
    let v := verifyPartial sha256 c s an (mulG sk) p m
    return ((serScalar s).1, v.isOk, decide (AggNonce.sum pn = an))) =
  some (hx "E184351828DA5094A97C79CABDAAA0BFB87608C32E8829A4DF5340A6F243B78C", true, true)

/-! sign_verify_vectors.json sign error 0 -/
#guard (do
    let sk ← parseScalar (hx "7FB9E0E687ADA1EEBF7ECFE2F21E73EBDB51A7D450948DFE8D76D7F2D1007671")
    let sn ← okOpt (SecNonce.fromBytes (hx "508B81A611F100A6B2B6B29656590898AF488BCF2E1F55CF22E5CFB84421FE61FA27FD49B1D50085B481285E1CA205D55C82CC1B31FF5CD54A489829355901F703935F972DA013F80AE011890FA89B67A27B7BE6CCB24D3274D18B2D4067F261A9"))
    let c ← ctxOf ["02F9308A019258C31049344F85F89D5229B531C845836F99B08601F113BCE036F9", "02DFF1D77F2A671C5F36183726DB2341BE58FEAE1DA2DECED843240F7B502BA661"]
    let an ← okOpt (AggNonce.fromBytes (hx "028465FCF0BBDBCF443AABCCE533D42B4B5A10966AC09A49655E8C42DAAB8FCD61037496A3CC86926D452CAFCFD55D25972CA1675D549310DE296BFF42F72EEEA8C9"))
    return isErr (signPartial sha256 c sk sn an (hx "F95466D086770E689964664219266FE5ED215C92AE20BAB5C9D79ADDDDF3C0CF"))) = some true

/-! sign_verify_vectors.json sign error 2 -/
#guard isErr (AggNonce.fromBytes (hx "048465FCF0BBDBCF443AABCCE533D42B4B5A10966AC09A49655E8C42DAAB8FCD61037496A3CC86926D452CAFCFD55D25972CA1675D549310DE296BFF42F72EEEA8C9"))

/-! sign_verify_vectors.json sign error 3 -/
#guard isErr (AggNonce.fromBytes (hx "028465FCF0BBDBCF443AABCCE533D42B4B5A10966AC09A49655E8C42DAAB8FCD61020000000000000000000000000000000000000000000000000000000000000009"))

/-! sign_verify_vectors.json sign error 4 -/
#guard isErr (AggNonce.fromBytes (hx "028465FCF0BBDBCF443AABCCE533D42B4B5A10966AC09A49655E8C42DAAB8FCD6102FFFFFFFFFFFFFFFFFFFFFFFFFFFFFFFFFFFFFFFFFFFFFFFFFFFFFFFEFFFFFC30"))

/-! sign_verify_vectors.json sign error 5 -/
#guard isErr (SecNonce.fromBytes (hx "0000000000000000000000000000000000000000000000000000000000000000000000000000000000000000000000000000000000000000000000000000000003935F972DA013F80AE011890FA89B67A27B7BE6CCB24D3274D18B2D4067F261A9"))

/-! sign_verify_vectors.json verify fail 0 -/
#guard (do
    let s ← parseMaybeScalar (hx "97AC833ADCB1AFA42EBF9E0725616F3C9A0D5B614F6FE283CEAAA37A8FFAF406")
    let ks ← pts ["03935F972DA013F80AE011890FA89B67A27B7BE6CCB24D3274D18B2D4067F261A9", "02F9308A019258C31049344F85F89D5229B531C845836F99B08601F113BCE036F9", "02DFF1D77F2A671C5F36183726DB2341BE58FEAE1DA2DECED843240F7B502BA661"]
    let c ← ctxOf ["03935F972DA013F80AE011890FA89B67A27B7BE6CCB24D3274D18B2D4067F261A9", "02F9308A019258C31049344F85F89D5229B531C845836F99B08601F113BCE036F9", "02DFF1D77F2A671C5F36183726DB2341BE58FEAE1DA2DECED843240F7B502BA661"]
    let pn ← pubs ["0337C87821AFD50A8644D820A8F3E02E499C931865C2360FB43D0A0D20DAFE07EA0287BF891D2A6DEAEBADC909352AA9405D1428C15F4B75F04DAE642A95C2548480", "0279BE667EF9DCBBAC55A06295CE870B07029BFCDB2DCE28D959F2815B16F817980279BE667EF9DCBBAC55A06295CE870B07029BFCDB2DCE28D959F2815B16F81798", "032DE2662628C90B03F5E720284EB52FF7D71F4284F627B68A853D78C78E1FFE9303E4C5524E83FFE1493B9077CF1CA6BEB2090C93D930321071AD40B2F44E599046"]
    let p ← pn[0]?
    let k ← ks[0]?
    return isErr (verifyPartial sha256 c s (AggNonce.sum pn) k p (hx "F95466D086770E689964664219266FE5ED215C92AE20BAB5C9D79ADDDDF3C0CF"))) = some true

/-! sign_verify_vectors.json verify fail 1 -/
#guard (do
    let s ← parseMaybeScalar (hx "68537CC5234E505BD14061F8DA9E90C220A181855FD8BDB7F127BB12403B4D3B")
    let ks ← pts ["03935F972DA013F80AE011890FA89B67A27B7BE6CCB24D3274D18B2D4067F261A9", "02F9308A019258C31049344F85F89D5229B531C845836F99B08601F113BCE036F9", "02DFF1D77F2A671C5F36183726DB2341BE58FEAE1DA2DECED843240F7B502BA661"]
    let c ← ctxOf ["03935F972DA013F80AE011890FA89B67A27B7BE6CCB24D3274D18B2D4067F261A9", "02F9308A019258C31049344F85F89D5229B531C845836F99B08601F113BCE036F9", "02DFF1D77F2A671C5F36183726DB2341BE58FEAE1DA2DECED843240F7B502BA661"]
    let pn ← pubs ["0337C87821AFD50A8644D820A8F3E02E499C931865C2360FB43D0A0D20DAFE07EA0287BF891D2A6DEAEBADC909352AA9405D1428C15F4B75F04DAE642A95C2548480", "0279BE667EF9DCBBAC55A06295CE870B07029BFCDB2DCE28D959F2815B16F817980279BE667EF9DCBBAC55A06295CE870B07029BFCDB2DCE28D959F2815B16F81798", "032DE2662628C90B03F5E720284EB52FF7D71F4284F627B68A853D78C78E1FFE9303E4C5524E83FFE1493B9077CF1CA6BEB2090C93D930321071AD40B2F44E599046"]
    let p ← pn[1]?
    let k ← ks[1]?
    return isErr (verifyPartial sha256 c s (AggNonce.sum pn) k p (hx "F95466D086770E689964664219266FE5ED215C92AE20BAB5C9D79ADDDDF3C0CF"))) = some true

/-! tweak_vectors.json valid 0 -/
#guard (do
    let sk ← parseScalar (hx "7FB9E0E687ADA1EEBF7ECFE2F21E73EBDB51A7D450948DFE8D76D7F2D1007671")
    let sn ← okOpt (SecNonce.fromBytes (hx "508B81A611F100A6B2B6B29656590898AF488BCF2E1F55CF22E5CFB84421FE61FA27FD49B1D50085B481285E1CA205D55C82CC1B31FF5CD54A489829355901F703935F972DA013F80AE011890FA89B67A27B7BE6CCB24D3274D18B2D4067F261A9"))
    let c ← ctxTw ["02F9308A019258C31049344F85F89D5229B531C845836F99B08601F113BCE036F9", "02DFF1D77F2A671C5F36183726DB2341BE58FEAE1DA2DECED843240F7B502BA659", "03935F972DA013F80AE011890FA89B67A27B7BE6CCB24D3274D18B2D4067F261A9"] [("E8F791FF9225A2AF0102AFFF4A9A723D9612A682A25EBE79802B263CDFCD83BB", true)]
    let an ← okOpt (AggNonce.fromBytes (hx "028465FCF0BBDBCF443AABCCE533D42B4B5A10966AC09A49655E8C42DAAB8FCD61037496A3CC86926D452CAFCFD55D25972CA1675D549310DE296BFF42F72EEEA8C9"))
    let s ← okOpt (signPartial sha256 c sk sn an (hx "F95466D086770E689964664219266FE5ED215C92AE20BAB5C9D79ADDDDF3C0CF"))
    let c' ← okOpt (KeyAggContext.fromBytes sha256 c.toBytes)
    return ((serScalar s).1, c.eq c', decide (c.pubkey = c'.pubkey))) =
  some (hx "E28A5C66E61E178C2BA19DB77B6CF9F7E2F0F56C17918CD13135E60CC848FE91", true, true)

/-! tweak_vectors.json valid 1 -/
#guard (do
    let sk ← parseScalar (hx "7FB9E0E687ADA1EEBF7ECFE2F21E73EBDB51A7D450948DFE8D76D7F2D1007671")
    let sn ← okOpt (SecNonce.fromBytes (hx "508B81A611F100A6B2B6B29656590898AF488BCF2E1F55CF22E5CFB84421FE61FA27FD49B1D50085B481285E1CA205D55C82CC1B31FF5CD54A489829355901F703935F972DA013F80AE011890FA89B67A27B7BE6CCB24D3274D18B2D4067F261A9"))
    let c ← ctxTw ["02F9308A019258C31049344F85F89D5229B531C845836F99B08601F113BCE036F9", "02DFF1D77F2A671C5F36183726DB2341BE58FEAE1DA2DECED843240F7B502BA659", "03935F972DA013F80AE011890FA89B67A27B7BE6CCB24D3274D18B2D4067F261A9"] [("E8F791FF9225A2AF0102AFFF4A9A723D9612A682A25EBE79802B263CDFCD83BB", false)]
    let an ← okOpt (AggNonce.fromBytes (hx "028465FCF0BBDBCF443AABCCE533D42B4B5A10966AC09A49655E8C42DAAB8FCD61037496A3CC86926D452CAFCFD55D25972CA1675D549310DE296BFF42F72EEEA8C9"))
    let s ← okOpt (signPartial sha256 c sk sn an (hx "F95466D086770E689964664219266FE5ED215C92AE20BAB5C9D79ADDDDF3C0CF"))
    let c' ← okOpt (KeyAggContext.fromBytes sha256 c.toBytes)
    return ((serScalar s).1, c.eq c', decide (c.pubkey = c'.pubkey))) =
  some (hx "38B0767798252F21BF5702C48028B095428320F73A4B14DB1E25DE58543D2D2D", true, true)

/-! tweak_vectors.json valid 2 -/
#guard (do
    let sk ← parseScalar (hx "7FB9E0E687ADA1EEBF7ECFE2F21E73EBDB51A7D450948DFE8D76D7F2D1007671")
    let sn ← okOpt (SecNonce.fromBytes (hx "508B81A611F100A6B2B6B29656590898AF488BCF2E1F55CF22E5CFB84421FE61FA27FD49B1D50085B481285E1CA205D55C82CC1B31FF5CD54A489829355901F703935F972DA013F80AE011890FA89B67A27B7BE6CCB24D3274D18B2D4067F261A9"))
    let c ← ctxTw ["02F9308A019258C31049344F85F89D5229B531C845836F99B08601F113BCE036F9", "02DFF1D77F2A671C5F36183726DB2341BE58FEAE1DA2DECED843240F7B502BA659", "03935F972DA013F80AE011890FA89B67A27B7BE6CCB24D3274D18B2D4067F261A9"] [("E8F791FF9225A2AF0102AFFF4A9A723D9612A682A25EBE79802B263CDFCD83BB", false), ("AE2EA797CC0FE72AC5B97B97F3C6957D7E4199A167A58EB08BCAFFDA70AC0455", true)]
    let an ← okOpt (AggNonce.fromBytes (hx "028465FCF0BBDBCF443AABCCE533D42B4B5A10966AC09A49655E8C42DAAB8FCD61037496A3CC86926D452CAFCFD55D25972CA1675D549310DE296BFF42F72EEEA8C9"))
    let s ← okOpt (signPartial sha256 c sk sn an (hx "F95466D086770E689964664219266FE5ED215C92AE20BAB5C9D79ADDDDF3C0CF"))
    let c' ← okOpt (KeyAggContext.fromBytes sha256 c.toBytes)
    return ((serScalar s).1, c.eq c', decide (c.pubkey = c'.pubkey))) =
  some (hx "408A0A21C4A0F5DACAF9646AD6EB6FECD7F7A11F03ED1F48DFFF2185BC2C2408", true, true)

/-! tweak_vectors.json valid 3 -/
#guard (do
    let sk ← parseScalar (hx "7FB9E0E687ADA1EEBF7ECFE2F21E73EBDB51A7D450948DFE8D76D7F2D1007671")
    let sn ← okOpt (SecNonce.fromBytes (hx "508B81A611F100A6B2B6B29656590898AF488BCF2E1F55CF22E5CFB84421FE61FA27FD49B1D50085B481285E1CA205D55C82CC1B31FF5CD54A489829355901F703935F972DA013F80AE011890FA89B67A27B7BE6CCB24D3274D18B2D4067F261A9"))
    let c ← ctxTw ["02F9308A019258C31049344F85F89D5229B531C845836F99B08601F113BCE036F9", "02DFF1D77F2A671C5F36183726DB2341BE58FEAE1DA2DECED843240F7B502BA659", "03935F972DA013F80AE011890FA89B67A27B7BE6CCB24D3274D18B2D4067F261A9"] [("E8F791FF9225A2AF0102AFFF4A9A723D9612A682A25EBE79802B263CDFCD83BB", false), ("AE2EA797CC0FE72AC5B97B97F3C6957D7E4199A167A58EB08BCAFFDA70AC0455", false), ("F52ECBC565B3D8BEA2DFD5B75A4F457E54369809322E4120831626F290FA87E0", true), ("1969AD73CC177FA0B4FCED6DF1F7BF9907E665FDE9BA196A74FED0A3CF5AEF9D", true)]
    let an ← okOpt (AggNonce.fromBytes (hx "028465FCF0BBDBCF443AABCCE533D42B4B5A10966AC09A49655E8C42DAAB8FCD61037496A3CC86926D452CAFCFD55D25972CA1675D549310DE296BFF42F72EEEA8C9"))
    let s ← okOpt (signPartial sha256 c sk sn an (hx "F95466D086770E689964664219266FE5ED215C92AE20BAB5C9D79ADDDDF3C0CF"))
    let c' ← okOpt (KeyAggContext.fromBytes sha256 c.toBytes)
    return ((serScalar s).1, c.eq c', decide (c.pubkey = c'.pubkey))) =
  some (hx "45ABD206E61E3DF2EC9E264A6FEC8292141A633C28586388235541F9ADE75435", true, true)

/-! tweak_vectors.json valid 4 -/
#guard (do
    let sk ← parseScalar (hx "7FB9E0E687ADA1EEBF7ECFE2F21E73EBDB51A7D450948DFE8D76D7F2D1007671")
    let sn ← okOpt (SecNonce.fromBytes (hx "508B81A611F100A6B2B6B29656590898AF488BCF2E1F55CF22E5CFB84421FE61FA27FD49B1D50085B481285E1CA205D55C82CC1B31FF5CD54A489829355901F703935F972DA013F80AE011890FA89B67A27B7BE6CCB24D3274D18B2D4067F261A9"))
    let c ← ctxTw ["02F9308A019258C31049344F85F89D5229B531C845836F99B08601F113BCE036F9", "02DFF1D77F2A671C5F36183726DB2341BE58FEAE1DA2DECED843240F7B502BA659", "03935F972DA013F80AE011890FA89B67A27B7BE6CCB24D3274D18B2D4067F261A9"] [("E8F791FF9225A2AF0102AFFF4A9A723D9612A682A25EBE79802B263CDFCD83BB", true), ("AE2EA797CC0FE72AC5B97B97F3C6957D7E4199A167A58EB08BCAFFDA70AC0455", false), ("F52ECBC565B3D8BEA2DFD5B75A4F457E54369809322E4120831626F290FA87E0", true), ("1969AD73CC177FA0B4FCED6DF1F7BF9907E665FDE9BA196A74FED0A3CF5AEF9D", false)]
    let an ← okOpt (AggNonce.fromBytes (hx "028465FCF0BBDBCF443AABCCE533D42B4B5A10966AC09A49655E8C42DAAB8FCD61037496A3CC86926D452CAFCFD55D25972CA1675D549310DE296BFF42F72EEEA8C9"))
    let s ← okOpt (signPartial sha256 c sk sn an (hx "F95466D086770E689964664219266FE5ED215C92AE20BAB5C9D79ADDDDF3C0CF"))
    let c' ← okOpt (KeyAggContext.fromBytes sha256 c.toBytes)
    return ((serScalar s).1, c.eq c', decide (c.pubkey = c'.pubkey))) =
  some (hx "B255FDCAC27B40C7CE7848E2D3B7BF5EA0ED756DA81565AC804CCCA3E1D5D239", true, true)

/-! sig_agg_vectors.json valid 0 -/
#guard (do
    let c ← ctxTw ["03935F972DA013F80AE011890FA89B67A27B7BE6CCB24D3274D18B2D4067F261A9", "02D2DC6F5DF7C56ACF38C7FA0AE7A759AE30E19B37359DFDE015872324C7EF6E05"] []
    let pn ← pubs ["036E5EE6E28824029FEA3E8A9DDD2C8483F5AF98F7177C3AF3CB6F47CAF8D94AE902DBA67E4A1F3680826172DA15AFB1A8CA85C7C5CC88900905C8DC8C328511B53E", "03E4F798DA48A76EEC1C9CC5AB7A880FFBA201A5F064E627EC9CB0031D1D58FC5103E06180315C5A522B7EC7C08B69DCD721C313C940819296D0A7AB8E8795AC1F00"]
    let ss ← (["B15D2CD3C3D22B04DAE438CE653F6B4ECF042F42CFDED7C41B64AAF9B4AF53FB", "6193D6AC61B354E9105BBDC8937A3454A6D705B6D57322A5A472A02CE99FCB64"] : List String).mapM fun s => parseMaybeScalar (hx s)
    let sig ← okOpt (aggregatePartialSignatures sha256 c (AggNonce.sum pn) ss (hx "599C67EA410D005B9DA90817CF03ED3B1C868E4DA4EDF00A5880B0082C237869"))
    return ((AggNonce.sum pn).toBytes, sig.toBytes, (verifySingleLifted sha256 c.pubkey sig (hx "599C67EA410D005B9DA90817CF03ED3B1C868E4DA4EDF00A5880B0082C237869")).isOk)) =
  some (hx "0341432722C5CD0268D829C702CF0D1CBCE57033EED201FD335191385227C3210C03D377F2D258B64AADC0E16F26462323D701D286046A2EA93365656AFD9875982B", hx "041DA22223CE65C92C9A0D6C2CAC828AAF1EEE56304FEC371DDF91EBB2B9EF0912F1038025857FEDEB3FF696F8B99FA4BB2C5812F6095A2E0004EC99CE18DE1E", true)

/-! sig_agg_vectors.json valid 1 -/
#guard (do
    let c ← ctxTw ["03935F972DA013F80AE011890FA89B67A27B7BE6CCB24D3274D18B2D4067F261A9", "03C7FB101D97FF930ACD0C6760852EF64E69083DE0B06AC6335724754BB4B0522C"] []
    let pn ← pubs ["036E5EE6E28824029FEA3E8A9DDD2C8483F5AF98F7177C3AF3CB6F47CAF8D94AE902DBA67E4A1F3680826172DA15AFB1A8CA85C7C5CC88900905C8DC8C328511B53E", "02C0068FD25523A31578B8077F24F78F5BD5F2422AFF47C1FADA0F36B3CEB6C7D202098A55D1736AA5FCC21CF0729CCE852575C06C081125144763C2C4C4A05C09B6"]
    let ss ← (["9A87D3B79EC67228CB97878B76049B15DBD05B8158D17B5B9114D3C226887505", "66F82EA90923689B855D36C6B7E032FB9970301481B99E01CDB4D6AC7C347A15"] : List String).mapM fun s => parseMaybeScalar (hx s)
    let sig ← okOpt (aggregatePartialSignatures sha256 c (AggNonce.sum pn) ss (hx "599C67EA410D005B9DA90817CF03ED3B1C868E4DA4EDF00A5880B0082C237869"))
    return ((AggNonce.sum pn).toBytes, sig.toBytes, (verifySingleLifted sha256 c.pubkey sig (hx "599C67EA410D005B9DA90817CF03ED3B1C868E4DA4EDF00A5880B0082C237869")).isOk)) =
  some (hx "0224AFD36C902084058B51B5D36676BBA4DC97C775873768E58822F87FE437D792028CB15929099EEE2F5DAE404CD39357591BA32E9AF4E162B8D3E7CB5EFE31CB20", hx "1069B67EC3D2F3C7C08291ACCB17A9C9B8F2819A52EB5DF8726E17E7D6B52E9F01800260A7E9DAC450F4BE522DE4CE12BA91AEAF2B4279219EF74BE1D286ADD9", true)

/-! sig_agg_vectors.json valid 2 -/
#guard (do
    let c ← ctxTw ["03935F972DA013F80AE011890FA89B67A27B7BE6CCB24D3274D18B2D4067F261A9", "03C7FB101D97FF930ACD0C6760852EF64E69083DE0B06AC6335724754BB4B0522C"] [("B511DA492182A91B0FFB9A98020D55F260AE86D7ECBD0399C7383D59A5F2AF7C", false)]
    let pn ← pubs ["036E5EE6E28824029FEA3E8A9DDD2C8483F5AF98F7177C3AF3CB6F47CAF8D94AE902DBA67E4A1F3680826172DA15AFB1A8CA85C7C5CC88900905C8DC8C328511B53E", "031F5C87DCFBFCF330DEE4311D85E8F1DEA01D87A6F1C14CDFC7E4F1D8C441CFA40277BF176E9F747C34F81B0D9F072B1B404A86F402C2D86CF9EA9E9C69876EA3B9"]
    let ss ← (["4F5AEE41510848A6447DCD1BBC78457EF69024944C87F40250D3EF2C25D33EFE", "DDEF427BBB847CC027BEFF4EDB01038148917832253EBC355FC33F4A8E2FCCE4"] : List String).mapM fun s => parseMaybeScalar (hx s)
    let sig ← okOpt (aggregatePartialSignatures sha256 c (AggNonce.sum pn) ss (hx "599C67EA410D005B9DA90817CF03ED3B1C868E4DA4EDF00A5880B0082C237869"))
    return ((AggNonce.sum pn).toBytes, sig.toBytes, (verifySingleLifted sha256 c.pubkey sig (hx "599C67EA410D005B9DA90817CF03ED3B1C868E4DA4EDF00A5880B0082C237869")).isOk)) =
  some (hx "0208C5C438C710F4F96A61E9FF3C37758814B8C3AE12BFEA0ED2C87FF6954FF186020B1816EA104B4FCA2D304D733E0E19CEAD51303FF6420BFD222335CAA402916D", hx "5C558E1DCADE86DA0B2F02626A512E30A22CF5255CAEA7EE32C38E9A71A0E9148BA6C0E6EC7683B64220F0298696F1B878CD47B107B81F7188812D593971E0CC", true)

/-! sig_agg_vectors.json valid 3 -/
#guard (do
    let c ← ctxTw ["03935F972DA013F80AE011890FA89B67A27B7BE6CCB24D3274D18B2D4067F261A9", "02352433B21E7E05D3B452B81CAE566E06D2E003ECE16D1074AABA4289E0E3D581"] [("B511DA492182A91B0FFB9A98020D55F260AE86D7ECBD0399C7383D59A5F2AF7C", true), ("A815FE049EE3C5AAB66310477FBC8BCCCAC2F3395F59F921C364ACD78A2F48DC", false), ("75448A87274B056468B977BE06EB1E9F657577B7320B0A3376EA51FD420D18A8", true)]
    let pn ← pubs ["036E5EE6E28824029FEA3E8A9DDD2C8483F5AF98F7177C3AF3CB6F47CAF8D94AE902DBA67E4A1F3680826172DA15AFB1A8CA85C7C5CC88900905C8DC8C328511B53E", "023F7042046E0397822C4144A17F8B63D78748696A46C3B9F0A901D296EC3406C302022B0B464292CF9751D699F10980AC764E6F671EFCA15069BBE62B0D1C62522A"]
    let ss ← (["97B890A26C981DA8102D3BC294159D171D72810FDF7C6A691DEF02F0F7AF3FDC", "53FA9E08BA5243CBCB0D797C5EE83BC6728E539EB76C2D0BF0F971EE4E909971"] : List String).mapM fun s => parseMaybeScalar (hx s)
    let sig ← okOpt (aggregatePartialSignatures sha256 c (AggNonce.sum pn) ss (hx "599C67EA410D005B9DA90817CF03ED3B1C868E4DA4EDF00A5880B0082C237869"))
    return ((AggNonce.sum pn).toBytes, sig.toBytes, (verifySingleLifted sha256 c.pubkey sig (hx "599C67EA410D005B9DA90817CF03ED3B1C868E4DA4EDF00A5880B0082C237869")).isOk)) =
  some (hx "02B5AD07AFCD99B6D92CB433FBD2A28FDEB98EAE2EB09B6014EF0F8197CD58403302E8616910F9293CF692C49F351DB86B25E352901F0E237BAFDA11F1C1CEF29FFD", hx "839B08820B681DBA8DAF4CC7B104E8F2638F9388F8D7A555DC17B6E6971D7426CE07BF6AB01F1DB50E4E33719295F4094572B79868E440FB3DEFD3FAC1DB589E", true)

/-! bip340_vectors.csv 0 signing -/
#guard (do
    let sk ← parseScalar (hx "0000000000000000000000000000000000000000000000000000000000000003")
    let sig ← okOpt (signSolo (ε := Unit) sha256 sk (hx "0000000000000000000000000000000000000000000000000000000000000000") (hx32 "0000000000000000000000000000000000000000000000000000000000000000"))
    return sig.toBytes) = some (hx "E907831F80848D1069A5371B402410364BDF1C5F8307B0084C55F1CE2DCA821525F66A4A85EA8B71E482A74F382D2CE5EBEEE8FDB2172F477DF4900D310536C0")

/-! bip340_vectors.csv 0 verification -/
#guard ((liftX (hx32 "F9308A019258C31049344F85F89D5229B531C845836F99B08601F113BCE036F9")).map fun p => (verifySingleBytes sha256 p (hx "E907831F80848D1069A5371B402410364BDF1C5F8307B0084C55F1CE2DCA821525F66A4A85EA8B71E482A74F382D2CE5EBEEE8FDB2172F477DF4900D310536C0") (hx "0000000000000000000000000000000000000000000000000000000000000000")).isOk).getD false = true

/-! bip340_vectors.csv 1 signing -/
#guard (do
    let sk ← parseScalar (hx "B7E151628AED2A6ABF7158809CF4F3C762E7160F38B4DA56A784D9045190CFEF")
    let sig ← okOpt (signSolo (ε := Unit) sha256 sk (hx "243F6A8885A308D313198A2E03707344A4093822299F31D0082EFA98EC4E6C89") (hx32 "0000000000000000000000000000000000000000000000000000000000000001"))
    return sig.toBytes) = some (hx "6896BD60EEAE296DB48A229FF71DFE071BDE413E6D43F917DC8DCF8C78DE33418906D11AC976ABCCB20B091292BFF4EA897EFCB639EA871CFA95F6DE339E4B0A")

/-! bip340_vectors.csv 1 verification -/
#guard ((liftX (hx32 "DFF1D77F2A671C5F36183726DB2341BE58FEAE1DA2DECED843240F7B502BA659")).map fun p => (verifySingleBytes sha256 p (hx "6896BD60EEAE296DB48A229FF71DFE071BDE413E6D43F917DC8DCF8C78DE33418906D11AC976ABCCB20B091292BFF4EA897EFCB639EA871CFA95F6DE339E4B0A") (hx "243F6A8885A308D313198A2E03707344A4093822299F31D0082EFA98EC4E6C89")).isOk).getD false = true

/-! bip340_vectors.csv 2 signing -/
#guard (do
    let sk ← parseScalar (hx "C90FDAA22168C234C4C6628B80DC1CD129024E088A67CC74020BBEA63B14E5C9")
    let sig ← okOpt (signSolo (ε := Unit) sha256 sk (hx "7E2D58D8B3BCDF1ABADEC7829054F90DDA9805AAB56C77333024B9D0A508B75C") (hx32 "C87AA53824B4D7AE2EB035A2B5BBBCCC080E76CDC6D1692C4B0B62D798E6D906"))
    return sig.toBytes) = some (hx "5831AAEED7B44BB74E5EAB94BA9D4294C49BCF2A60728D8B4C200F50DD313C1BAB745879A5AD954A72C45A91C3A51D3C7ADEA98D82F8481E0E1E03674A6F3FB7")

/-! bip340_vectors.csv 2 verification -/
#guard ((liftX (hx32 "DD308AFEC5777E13121FA72B9CC1B7CC0139715309B086C960E18FD969774EB8")).map fun p => (verifySingleBytes sha256 p (hx "5831AAEED7B44BB74E5EAB94BA9D4294C49BCF2A60728D8B4C200F50DD313C1BAB745879A5AD954A72C45A91C3A51D3C7ADEA98D82F8481E0E1E03674A6F3FB7") (hx "7E2D58D8B3BCDF1ABADEC7829054F90DDA9805AAB56C77333024B9D0A508B75C")).isOk).getD false = true

/-! bip340_vectors.csv 3 signing -/
#guard (do
    let sk ← parseScalar (hx "0B432B2677937381AEF05BB02A66ECD012773062CF3FA2549E44F58ED2401710")
    let sig ← okOpt (signSolo (ε := Unit) sha256 sk (hx "FFFFFFFFFFFFFFFFFFFFFFFFFFFFFFFFFFFFFFFFFFFFFFFFFFFFFFFFFFFFFFFF") (hx32 "FFFFFFFFFFFFFFFFFFFFFFFFFFFFFFFFFFFFFFFFFFFFFFFFFFFFFFFFFFFFFFFF"))
    return sig.toBytes) = some (hx "7EB0509757E246F19449885651611CB965ECC1A187DD51B64FDA1EDC9637D5EC97582B9CB13DB3933705B32BA982AF5AF25FD78881EBB32771FC5922EFC66EA3")

/-! bip340_vectors.csv 3 verification -/
#guard ((liftX (hx32 "25D1DFF95105F5253C4022F628A996AD3A0D95FBF21D468A1B33F8C160D8F517")).map fun p => (verifySingleBytes sha256 p (hx "7EB0509757E246F19449885651611CB965ECC1A187DD51B64FDA1EDC9637D5EC97582B9CB13DB3933705B32BA982AF5AF25FD78881EBB32771FC5922EFC66EA3") (hx "FFFFFFFFFFFFFFFFFFFFFFFFFFFFFFFFFFFFFFFFFFFFFFFFFFFFFFFFFFFFFFFF")).isOk).getD false = true

/-! bip340_vectors.csv 4 verification -/
#guard ((liftX (hx32 "D69C3509BB99E412E68B0FE8544E72837DFA30746D8BE2AA65975F29D22DC7B9")).map fun p => (verifySingleBytes sha256 p (hx "00000000000000000000003B78CE563F89A0ED9414F5AA28AD0D96D6795F9C6376AFB1548AF603B3EB45C9F8207DEE1060CB71C04E80F593060B07D28308D7F4") (hx "4DF3C3F68FCC83B27E9D42C90431A72499F17875C81A599B566C9889B9696703")).isOk).getD false = true

/-! bip340_vectors.csv 5 verification -/
#guard ((liftX (hx32 "EEFDEA4CDB677750A420FEE807EACF21EB9898AE79B9768766E4FAA04A2D4A34")).map fun p => (verifySingleBytes sha256 p (hx "6CFF5C3BA86C69EA4B7376F31A9BCB4F74C1976089B2D9963DA2E5543E17776969E89B4C5564D00349106B8497785DD7D1D713A8AE82B32FA79D5F7FC407D39B") (hx "243F6A8885A308D313198A2E03707344A4093822299F31D0082EFA98EC4E6C89")).isOk).getD false = false

/-! bip340_vectors.csv 6 verification -/
#guard ((liftX (hx32 "DFF1D77F2A671C5F36183726DB2341BE58FEAE1DA2DECED843240F7B502BA659")).map fun p => (verifySingleBytes sha256 p (hx "FFF97BD5755EEEA420453A14355235D382F6472F8568A18B2F057A14602975563CC27944640AC607CD107AE10923D9EF7A73C643E166BE5EBEAFA34B1AC553E2") (hx "243F6A8885A308D313198A2E03707344A4093822299F31D0082EFA98EC4E6C89")).isOk).getD false = false

/-! bip340_vectors.csv 7 verification -/
#guard ((liftX (hx32 "DFF1D77F2A671C5F36183726DB2341BE58FEAE1DA2DECED843240F7B502BA659")).map fun p => (verifySingleBytes sha256 p (hx "1FA62E331EDBC21C394792D2AB1100A7B432B013DF3F6FF4F99FCB33E0E1515F28890B3EDB6E7189B630448B515CE4F8622A954CFE545735AAEA5134FCCDB2BD") (hx "243F6A8885A308D313198A2E03707344A4093822299F31D0082EFA98EC4E6C89")).isOk).getD false = false

/-! bip340_vectors.csv 8 verification -/
#guard ((liftX (hx32 "DFF1D77F2A671C5F36183726DB2341BE58FEAE1DA2DECED843240F7B502BA659")).map fun p => (verifySingleBytes sha256 p (hx "6CFF5C3BA86C69EA4B7376F31A9BCB4F74C1976089B2D9963DA2E5543E177769961764B3AA9B2FFCB6EF947B6887A226E8D7C93E00C5ED0C1834FF0D0C2E6DA6") (hx "243F6A8885A308D313198A2E03707344A4093822299F31D0082EFA98EC4E6C89")).isOk).getD false = false

/-! bip340_vectors.csv 9 verification -/
#guard ((liftX (hx32 "DFF1D77F2A671C5F36183726DB2341BE58FEAE1DA2DECED843240F7B502BA659")).map fun p => (verifySingleBytes sha256 p (hx "0000000000000000000000000000000000000000000000000000000000000000123DDA8328AF9C23A94C1FEECFD123BA4FB73476F0D594DCB65C6425BD186051") (hx "243F6A8885A308D313198A2E03707344A4093822299F31D0082EFA98EC4E6C89")).isOk).getD false = false

/-! bip340_vectors.csv 10 verification -/
#guard ((liftX (hx32 "DFF1D77F2A671C5F36183726DB2341BE58FEAE1DA2DECED843240F7B502BA659")).map fun p => (verifySingleBytes sha256 p (hx "00000000000000000000000000000000000000000000000000000000000000017615FBAF5AE28864013C099742DEADB4DBA87F11AC6754F93780D5A1837CF197") (hx "243F6A8885A308D313198A2E03707344A4093822299F31D0082EFA98EC4E6C89")).isOk).getD false = false

/-! bip340_vectors.csv 11 verification -/
#guard ((liftX (hx32 "DFF1D77F2A671C5F36183726DB2341BE58FEAE1DA2DECED843240F7B502BA659")).map fun p => (verifySingleBytes sha256 p (hx "4A298DACAE57395A15D0795DDBFD1DCB564DA82B0F269BC70A74F8220429BA1D69E89B4C5564D00349106B8497785DD7D1D713A8AE82B32FA79D5F7FC407D39B") (hx "243F6A8885A308D313198A2E03707344A4093822299F31D0082EFA98EC4E6C89")).isOk).getD false = false

/-! bip340_vectors.csv 12 verification -/
#guard ((liftX (hx32 "DFF1D77F2A671C5F36183726DB2341BE58FEAE1DA2DECED843240F7B502BA659")).map fun p => (verifySingleBytes sha256 p (hx "FFFFFFFFFFFFFFFFFFFFFFFFFFFFFFFFFFFFFFFFFFFFFFFFFFFFFFFEFFFFFC2F69E89B4C5564D00349106B8497785DD7D1D713A8AE82B32FA79D5F7FC407D39B") (hx "243F6A8885A308D313198A2E03707344A4093822299F31D0082EFA98EC4E6C89")).isOk).getD false = false

/-! bip340_vectors.csv 13 verification -/
#guard ((liftX (hx32 "DFF1D77F2A671C5F36183726DB2341BE58FEAE1DA2DECED843240F7B502BA659")).map fun p => (verifySingleBytes sha256 p (hx "6CFF5C3BA86C69EA4B7376F31A9BCB4F74C1976089B2D9963DA2E5543E177769FFFFFFFFFFFFFFFFFFFFFFFFFFFFFFFEBAAEDCE6AF48A03BBFD25E8CD0364141") (hx "243F6A8885A308D313198A2E03707344A4093822299F31D0082EFA98EC4E6C89")).isOk).getD false = false

/-! bip340_vectors.csv 14 verification -/
#guard ((liftX (hx32 "FFFFFFFFFFFFFFFFFFFFFFFFFFFFFFFFFFFFFFFFFFFFFFFFFFFFFFFEFFFFFC30")).map fun p => (verifySingleBytes sha256 p (hx "6CFF5C3BA86C69EA4B7376F31A9BCB4F74C1976089B2D9963DA2E5543E17776969E89B4C5564D00349106B8497785DD7D1D713A8AE82B32FA79D5F7FC407D39B") (hx "243F6A8885A308D313198A2E03707344A4093822299F31D0082EFA98EC4E6C89")).isOk).getD false = false

/-! bip340_vectors.csv 15 signing -/
#guard (do
    let sk ← parseScalar (hx "0340034003400340034003400340034003400340034003400340034003400340")
    let sig ← okOpt (signSolo (ε := Unit) sha256 sk (hx "") (hx32 "0000000000000000000000000000000000000000000000000000000000000000"))
    return sig.toBytes) = some (hx "71535DB165ECD9FBBC046E5FFAEA61186BB6AD436732FCCC25291A55895464CF6069CE26BF03466228F19A3A62DB8A649F2D560FAC652827D1AF0574E427AB63")

/-! bip340_vectors.csv 15 verification -/
#guard ((liftX (hx32 "778CAA53B4393AC467774D09497A87224BF9FAB6F6E68B23086497324D6FD117")).map fun p => (verifySingleBytes sha256 p (hx "71535DB165ECD9FBBC046E5FFAEA61186BB6AD436732FCCC25291A55895464CF6069CE26BF03466228F19A3A62DB8A649F2D560FAC652827D1AF0574E427AB63") (hx "")).isOk).getD false = true

/-! bip340_vectors.csv 16 signing -/
#guard (do
    let sk ← parseScalar (hx "0340034003400340034003400340034003400340034003400340034003400340")
    let sig ← okOpt (signSolo (ε := Unit) sha256 sk (hx "11") (hx32 "0000000000000000000000000000000000000000000000000000000000000000"))
    return sig.toBytes) = some (hx "08A20A0AFEF64124649232E0693C583AB1B9934AE63B4C3511F3AE1134C6A303EA3173BFEA6683BD101FA5AA5DBC1996FE7CACFC5A577D33EC14564CEC2BACBF")

/-! bip340_vectors.csv 16 verification -/
#guard ((liftX (hx32 "778CAA53B4393AC467774D09497A87224BF9FAB6F6E68B23086497324D6FD117")).map fun p => (verifySingleBytes sha256 p (hx "08A20A0AFEF64124649232E0693C583AB1B9934AE63B4C3511F3AE1134C6A303EA3173BFEA6683BD101FA5AA5DBC1996FE7CACFC5A577D33EC14564CEC2BACBF") (hx "11")).isOk).getD false = true

/-! bip340_vectors.csv 17 signing -/
#guard (do
    let sk ← parseScalar (hx "0340034003400340034003400340034003400340034003400340034003400340")
    let sig ← okOpt (signSolo (ε := Unit) sha256 sk (hx "0102030405060708090A0B0C0D0E0F1011") (hx32 "0000000000000000000000000000000000000000000000000000000000000000"))
    return sig.toBytes) = some (hx "5130F39A4059B43BC7CAC09A19ECE52B5D8699D1A71E3C52DA9AFDB6B50AC370C4A482B77BF960F8681540E25B6771ECE1E5A37FD80E5A51897C5566A97EA5A5")

/-! bip340_vectors.csv 17 verification -/
#guard ((liftX (hx32 "778CAA53B4393AC467774D09497A87224BF9FAB6F6E68B23086497324D6FD117")).map fun p => (verifySingleBytes sha256 p (hx "5130F39A4059B43BC7CAC09A19ECE52B5D8699D1A71E3C52DA9AFDB6B50AC370C4A482B77BF960F8681540E25B6771ECE1E5A37FD80E5A51897C5566A97EA5A5") (hx "0102030405060708090A0B0C0D0E0F1011")).isOk).getD false = true

/-! bip340_vectors.csv 18 signing -/
#guard (do
    let sk ← parseScalar (hx "0340034003400340034003400340034003400340034003400340034003400340")
    let sig ← okOpt (signSolo (ε := Unit) sha256 sk (hx "99999999999999999999999999999999999999999999999999999999999999999999999999999999999999999999999999999999999999999999999999999999999999999999999999999999999999999999999999999999999999999999999999999999") (hx32 "0000000000000000000000000000000000000000000000000000000000000000"))
    return sig.toBytes) = some (hx "403B12B0D8555A344175EA7EC746566303321E5DBFA8BE6F091635163ECA79A8585ED3E3170807E7C03B720FC54C7B23897FCBA0E9D0B4A06894CFD249F22367")

/-! bip340_vectors.csv 18 verification -/
#guard ((liftX (hx32 "778CAA53B4393AC467774D09497A87224BF9FAB6F6E68B23086497324D6FD117")).map fun p => (verifySingleBytes sha256 p (hx "403B12B0D8555A344175EA7EC746566303321E5DBFA8BE6F091635163ECA79A8585ED3E3170807E7C03B720FC54C7B23897FCBA0E9D0B4A06894CFD249F22367") (hx "99999999999999999999999999999999999999999999999999999999999999999999999999999999999999999999999999999999999999999999999999999999999999999999999999999999999999999999999999999999999999999999999999999999")).isOk).getD false = true

/-! deterministic.rs:116-146 -/
#guard (do
    let sk ← parseScalar (hx "C9AFA9D845BA75166B5C215767B1D6934E50C3DB36E89B127B8A622B120F6721")
    let k ← deriveNonceRfc6979 sha256 sk "sample".toUTF8.toList
    return (serScalar k.1).1) = some (hx "A6E3C57DD01ABE90086538398355DD4C3B17AA873382B0F24D6129493D8AAD60")

/-! deterministic.rs:116-146 -/
#guard (do
    let sk ← parseScalar (hx "C9AFA9D845BA75166B5C215767B1D6934E50C3DB36E89B127B8A622B120F6721")
    let k ← deriveNonceRfc6979 sha256 sk "test".toUTF8.toList
    return (serScalar k.1).1) = some (hx "D16B6AE827F17175E040871A1C7EC3500192C4C92677336EC2537ACAEE0008E0")

end Verif.Test
