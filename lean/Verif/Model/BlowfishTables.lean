import Verif.Basic
/-!
# The tables `P0` and `S0` of `src/fishes/blowfish.c`

Generated from the source text by tools/genbf.py.
-/
namespace Pgfe.Model

/-- `P0`, src/fishes/blowfish.c:12-15. -/
def bfP0 : List W32 := [
  0x243F6A88#32, 0x85A308D3#32, 0x13198A2E#32, 0x03707344#32, 0xA4093822#32, 0x299F31D0#32, 0x082EFA98#32, 0xEC4E6C89#32,
  0x452821E6#32, 0x38D01377#32, 0xBE5466CF#32, 0x34E90C6C#32, 0xC0AC29B7#32, 0xC97C50DD#32, 0x3F84D5B5#32, 0xB5470917#32,
  0x9216D5D9#32, 0x8979FB1B#32]

/-- `S0[0]`, src/fishes/blowfish.c. -/
def bfS0_0 : List W32 := [
  0xD1310BA6#32, 0x98DFB5AC#32, 0x2FFD72DB#32, 0xD01ADFB7#32, 0xB8E1AFED#32, 0x6A267E96#32, 0xBA7C9045#32, 0xF12C7F99#32,
  0x24A19947#32, 0xB3916CF7#32, 0x0801F2E2#32, 0x858EFC16#32, 0x636920D8#32, 0x71574E69#32, 0xA458FEA3#32, 0xF4933D7E#32,
  0x0D95748F#32, 0x728EB658#32, 0x718BCD58#32, 0x82154AEE#32, 0x7B54A41D#32, 0xC25A59B5#32, 0x9C30D539#32, 0x2AF26013#32,
  0xC5D1B023#32, 0x286085F0#32, 0xCA417918#32, 0xB8DB38EF#32, 0x8E79DCB0#32, 0x603A180E#32, 0x6C9E0E8B#32, 0xB01E8A3E#32,
  0xD71577C1#32, 0xBD314B27#32, 0x78AF2FDA#32, 0x55605C60#32, 0xE65525F3#32, 0xAA55AB94#32, 0x57489862#32, 0x63E81440#32,
  0x55CA396A#32, 0x2AAB10B6#32, 0xB4CC5C34#32, 0x1141E8CE#32, 0xA15486AF#32, 0x7C72E993#32, 0xB3EE1411#32, 0x636FBC2A#32,
  0x2BA9C55D#32, 0x741831F6#32, 0xCE5C3E16#32, 0x9B87931E#32, 0xAFD6BA33#32, 0x6C24CF5C#32, 0x7A325381#32, 0x28958677#32,
  0x3B8F4898#32, 0x6B4BB9AF#32, 0xC4BFE81B#32, 0x66282193#32, 0x61D809CC#32, 0xFB21A991#32, 0x487CAC60#32, 0x5DEC8032#32,
  0xEF845D5D#32, 0xE98575B1#32, 0xDC262302#32, 0xEB651B88#32, 0x23893E81#32, 0xD396ACC5#32, 0x0F6D6FF3#32, 0x83F44239#32,
  0x2E0B4482#32, 0xA4842004#32, 0x69C8F04A#32, 0x9E1F9B5E#32, 0x21C66842#32, 0xF6E96C9A#32, 0x670C9C61#32, 0xABD388F0#32,
  0x6A51A0D2#32, 0xD8542F68#32, 0x960FA728#32, 0xAB5133A3#32, 0x6EEF0B6C#32, 0x137A3BE4#32, 0xBA3BF050#32, 0x7EFB2A98#32,
  0xA1F1651D#32, 0x39AF0176#32, 0x66CA593E#32, 0x82430E88#32, 0x8CEE8619#32, 0x456F9FB4#32, 0x7D84A5C3#32, 0x3B8B5EBE#32,
  0xE06F75D8#32, 0x85C12073#32, 0x401A449F#32, 0x56C16AA6#32, 0x4ED3AA62#32, 0x363F7706#32, 0x1BFEDF72#32, 0x429B023D#32,
  0x37D0D724#32, 0xD00A1248#32, 0xDB0FEAD3#32, 0x49F1C09B#32, 0x075372C9#32, 0x80991B7B#32, 0x25D479D8#32, 0xF6E8DEF7#32,
  0xE3FE501A#32, 0xB6794C3B#32, 0x976CE0BD#32, 0x04C006BA#32, 0xC1A94FB6#32, 0x409F60C4#32, 0x5E5C9EC2#32, 0x196A2463#32,
  0x68FB6FAF#32, 0x3E6C53B5#32, 0x1339B2EB#32, 0x3B52EC6F#32, 0x6DFC511F#32, 0x9B30952C#32, 0xCC814544#32, 0xAF5EBD09#32,
  0xBEE3D004#32, 0xDE334AFD#32, 0x660F2807#32, 0x192E4BB3#32, 0xC0CBA857#32, 0x45C8740F#32, 0xD20B5F39#32, 0xB9D3FBDB#32,
  0x5579C0BD#32, 0x1A60320A#32, 0xD6A100C6#32, 0x402C7279#32, 0x679F25FE#32, 0xFB1FA3CC#32, 0x8EA5E9F8#32, 0xDB3222F8#32,
  0x3C7516DF#32, 0xFD616B15#32, 0x2F501EC8#32, 0xAD0552AB#32, 0x323DB5FA#32, 0xFD238760#32, 0x53317B48#32, 0x3E00DF82#32,
  0x9E5C57BB#32, 0xCA6F8CA0#32, 0x1A87562E#32, 0xDF1769DB#32, 0xD542A8F6#32, 0x287EFFC3#32, 0xAC6732C6#32, 0x8C4F5573#32,
  0x695B27B0#32, 0xBBCA58C8#32, 0xE1FFA35D#32, 0xB8F011A0#32, 0x10FA3D98#32, 0xFD2183B8#32, 0x4AFCB56C#32, 0x2DD1D35B#32,
  0x9A53E479#32, 0xB6F84565#32, 0xD28E49BC#32, 0x4BFB9790#32, 0xE1DDF2DA#32, 0xA4CB7E33#32, 0x62FB1341#32, 0xCEE4C6E8#32,
  0xEF20CADA#32, 0x36774C01#32, 0xD07E9EFE#32, 0x2BF11FB4#32, 0x95DBDA4D#32, 0xAE909198#32, 0xEAAD8E71#32, 0x6B93D5A0#32,
  0xD08ED1D0#32, 0xAFC725E0#32, 0x8E3C5B2F#32, 0x8E7594B7#32, 0x8FF6E2FB#32, 0xF2122B64#32, 0x8888B812#32, 0x900DF01C#32,
  0x4FAD5EA0#32, 0x688FC31C#32, 0xD1CFF191#32, 0xB3A8C1AD#32, 0x2F2F2218#32, 0xBE0E1777#32, 0xEA752DFE#32, 0x8B021FA1#32,
  0xE5A0CC0F#32, 0xB56F74E8#32, 0x18ACF3D6#32, 0xCE89E299#32, 0xB4A84FE0#32, 0xFD13E0B7#32, 0x7CC43B81#32, 0xD2ADA8D9#32,
  0x165FA266#32, 0x80957705#32, 0x93CC7314#32, 0x211A1477#32, 0xE6AD2065#32, 0x77B5FA86#32, 0xC75442F5#32, 0xFB9D35CF#32,
  0xEBCDAF0C#32, 0x7B3E89A0#32, 0xD6411BD3#32, 0xAE1E7E49#32, 0x00250E2D#32, 0x2071B35E#32, 0x226800BB#32, 0x57B8E0AF#32,
  0x2464369B#32, 0xF009B91E#32, 0x5563911D#32, 0x59DFA6AA#32, 0x78C14389#32, 0xD95A537F#32, 0x207D5BA2#32, 0x02E5B9C5#32,
  0x83260376#32, 0x6295CFA9#32, 0x11C81968#32, 0x4E734A41#32, 0xB3472DCA#32, 0x7B14A94A#32, 0x1B510052#32, 0x9A532915#32,
  0xD60F573F#32, 0xBC9BC6E4#32, 0x2B60A476#32, 0x81E67400#32, 0x08BA6FB5#32, 0x571BE91F#32, 0xF296EC6B#32, 0x2A0DD915#32,
  0xB6636521#32, 0xE7B9F9B6#32, 0xFF34052E#32, 0xC5855664#32, 0x53B02D5D#32, 0xA99F8FA1#32, 0x08BA4799#32, 0x6E85076A#32]

/-- `S0[1]`, src/fishes/blowfish.c. -/
def bfS0_1 : List W32 := [
  0x4B7A70E9#32, 0xB5B32944#32, 0xDB75092E#32, 0xC4192623#32, 0xAD6EA6B0#32, 0x49A7DF7D#32, 0x9CEE60B8#32, 0x8FEDB266#32,
  0xECAA8C71#32, 0x699A17FF#32, 0x5664526C#32, 0xC2B19EE1#32, 0x193602A5#32, 0x75094C29#32, 0xA0591340#32, 0xE4183A3E#32,
  0x3F54989A#32, 0x5B429D65#32, 0x6B8FE4D6#32, 0x99F73FD6#32, 0xA1D29C07#32, 0xEFE830F5#32, 0x4D2D38E6#32, 0xF0255DC1#32,
  0x4CDD2086#32, 0x8470EB26#32, 0x6382E9C6#32, 0x021ECC5E#32, 0x09686B3F#32, 0x3EBAEFC9#32, 0x3C971814#32, 0x6B6A70A1#32,
  0x687F3584#32, 0x52A0E286#32, 0xB79C5305#32, 0xAA500737#32, 0x3E07841C#32, 0x7FDEAE5C#32, 0x8E7D44EC#32, 0x5716F2B8#32,
  0xB03ADA37#32, 0xF0500C0D#32, 0xF01C1F04#32, 0x0200B3FF#32, 0xAE0CF51A#32, 0x3CB574B2#32, 0x25837A58#32, 0xDC0921BD#32,
  0xD19113F9#32, 0x7CA92FF6#32, 0x94324773#32, 0x22F54701#32, 0x3AE5E581#32, 0x37C2DADC#32, 0xC8B57634#32, 0x9AF3DDA7#32,
  0xA9446146#32, 0x0FD0030E#32, 0xECC8C73E#32, 0xA4751E41#32, 0xE238CD99#32, 0x3BEA0E2F#32, 0x3280BBA1#32, 0x183EB331#32,
  0x4E548B38#32, 0x4F6DB908#32, 0x6F420D03#32, 0xF60A04BF#32, 0x2CB81290#32, 0x24977C79#32, 0x5679B072#32, 0xBCAF89AF#32,
  0xDE9A771F#32, 0xD9930810#32, 0xB38BAE12#32, 0xDCCF3F2E#32, 0x5512721F#32, 0x2E6B7124#32, 0x501ADDE6#32, 0x9F84CD87#32,
  0x7A584718#32, 0x7408DA17#32, 0xBC9F9ABC#32, 0xE94B7D8C#32, 0xEC7AEC3A#32, 0xDB851DFA#32, 0x63094366#32, 0xC464C3D2#32,
  0xEF1C1847#32, 0x3215D908#32, 0xDD433B37#32, 0x24C2BA16#32, 0x12A14D43#32, 0x2A65C451#32, 0x50940002#32, 0x133AE4DD#32,
  0x71DFF89E#32, 0x10314E55#32, 0x81AC77D6#32, 0x5F11199B#32, 0x043556F1#32, 0xD7A3C76B#32, 0x3C11183B#32, 0x5924A509#32,
  0xF28FE6ED#32, 0x97F1FBFA#32, 0x9EBABF2C#32, 0x1E153C6E#32, 0x86E34570#32, 0xEAE96FB1#32, 0x860E5E0A#32, 0x5A3E2AB3#32,
  0x771FE71C#32, 0x4E3D06FA#32, 0x2965DCB9#32, 0x99E71D0F#32, 0x803E89D6#32, 0x5266C825#32, 0x2E4CC978#32, 0x9C10B36A#32,
  0xC6150EBA#32, 0x94E2EA78#32, 0xA5FC3C53#32, 0x1E0A2DF4#32, 0xF2F74EA7#32, 0x361D2B3D#32, 0x1939260F#32, 0x19C27960#32,
  0x5223A708#32, 0xF71312B6#32, 0xEBADFE6E#32, 0xEAC31F66#32, 0xE3BC4595#32, 0xA67BC883#32, 0xB17F37D1#32, 0x018CFF28#32,
  0xC332DDEF#32, 0xBE6C5AA5#32, 0x65582185#32, 0x68AB9802#32, 0xEECEA50F#32, 0xDB2F953B#32, 0x2AEF7DAD#32, 0x5B6E2F84#32,
  0x1521B628#32, 0x29076170#32, 0xECDD4775#32, 0x619F1510#32, 0x13CCA830#32, 0xEB61BD96#32, 0x0334FE1E#32, 0xAA0363CF#32,
  0xB5735C90#32, 0x4C70A239#32, 0xD59E9E0B#32, 0xCBAADE14#32, 0xEECC86BC#32, 0x60622CA7#32, 0x9CAB5CAB#32, 0xB2F3846E#32,
  0x648B1EAF#32, 0x19BDF0CA#32, 0xA02369B9#32, 0x655ABB50#32, 0x40685A32#32, 0x3C2AB4B3#32, 0x319EE9D5#32, 0xC021B8F7#32,
  0x9B540B19#32, 0x875FA099#32, 0x95F7997E#32, 0x623D7DA8#32, 0xF837889A#32, 0x97E32D77#32, 0x11ED935F#32, 0x16681281#32,
  0x0E358829#32, 0xC7E61FD6#32, 0x96DEDFA1#32, 0x7858BA99#32, 0x57F584A5#32, 0x1B227263#32, 0x9B83C3FF#32, 0x1AC24696#32,
  0xCDB30AEB#32, 0x532E3054#32, 0x8FD948E4#32, 0x6DBC3128#32, 0x58EBF2EF#32, 0x34C6FFEA#32, 0xFE28ED61#32, 0xEE7C3C73#32,
  0x5D4A14D9#32, 0xE864B7E3#32, 0x42105D14#32, 0x203E13E0#32, 0x45EEE2B6#32, 0xA3AAABEA#32, 0xDB6C4F15#32, 0xFACB4FD0#32,
  0xC742F442#32, 0xEF6ABBB5#32, 0x654F3B1D#32, 0x41CD2105#32, 0xD81E799E#32, 0x86854DC7#32, 0xE44B476A#32, 0x3D816250#32,
  0xCF62A1F2#32, 0x5B8D2646#32, 0xFC8883A0#32, 0xC1C7B6A3#32, 0x7F1524C3#32, 0x69CB7492#32, 0x47848A0B#32, 0x5692B285#32,
  0x095BBF00#32, 0xAD19489D#32, 0x1462B174#32, 0x23820E00#32, 0x58428D2A#32, 0x0C55F5EA#32, 0x1DADF43E#32, 0x233F7061#32,
  0x3372F092#32, 0x8D937E41#32, 0xD65FECF1#32, 0x6C223BDB#32, 0x7CDE3759#32, 0xCBEE7460#32, 0x4085F2A7#32, 0xCE77326E#32,
  0xA6078084#32, 0x19F8509E#32, 0xE8EFD855#32, 0x61D99735#32, 0xA969A7AA#32, 0xC50C06C2#32, 0x5A04ABFC#32, 0x800BCADC#32,
  0x9E447A2E#32, 0xC3453484#32, 0xFDD56705#32, 0x0E1E9EC9#32, 0xDB73DBD3#32, 0x105588CD#32, 0x675FDA79#32, 0xE3674340#32,
  0xC5C43465#32, 0x713E38D8#32, 0x3D28F89E#32, 0xF16DFF20#32, 0x153E21E7#32, 0x8FB03D4A#32, 0xE6E39F2B#32, 0xDB83ADF7#32]

/-- `S0[2]`, src/fishes/blowfish.c. -/
def bfS0_2 : List W32 := [
  0xE93D5A68#32, 0x948140F7#32, 0xF64C261C#32, 0x94692934#32, 0x411520F7#32, 0x7602D4F7#32, 0xBCF46B2E#32, 0xD4A20068#32,
  0xD4082471#32, 0x3320F46A#32, 0x43B7D4B7#32, 0x500061AF#32, 0x1E39F62E#32, 0x97244546#32, 0x14214F74#32, 0xBF8B8840#32,
  0x4D95FC1D#32, 0x96B591AF#32, 0x70F4DDD3#32, 0x66A02F45#32, 0xBFBC09EC#32, 0x03BD9785#32, 0x7FAC6DD0#32, 0x31CB8504#32,
  0x96EB27B3#32, 0x55FD3941#32, 0xDA2547E6#32, 0xABCA0A9A#32, 0x28507825#32, 0x530429F4#32, 0x0A2C86DA#32, 0xE9B66DFB#32,
  0x68DC1462#32, 0xD7486900#32, 0x680EC0A4#32, 0x27A18DEE#32, 0x4F3FFEA2#32, 0xE887AD8C#32, 0xB58CE006#32, 0x7AF4D6B6#32,
  0xAACE1E7C#32, 0xD3375FEC#32, 0xCE78A399#32, 0x406B2A42#32, 0x20FE9E35#32, 0xD9F385B9#32, 0xEE39D7AB#32, 0x3B124E8B#32,
  0x1DC9FAF7#32, 0x4B6D1856#32, 0x26A36631#32, 0xEAE397B2#32, 0x3A6EFA74#32, 0xDD5B4332#32, 0x6841E7F7#32, 0xCA7820FB#32,
  0xFB0AF54E#32, 0xD8FEB397#32, 0x454056AC#32, 0xBA489527#32, 0x55533A3A#32, 0x20838D87#32, 0xFE6BA9B7#32, 0xD096954B#32,
  0x55A867BC#32, 0xA1159A58#32, 0xCCA92963#32, 0x99E1DB33#32, 0xA62A4A56#32, 0x3F3125F9#32, 0x5EF47E1C#32, 0x9029317C#32,
  0xFDF8E802#32, 0x04272F70#32, 0x80BB155C#32, 0x05282CE3#32, 0x95C11548#32, 0xE4C66D22#32, 0x48C1133F#32, 0xC70F86DC#32,
  0x07F9C9EE#32, 0x41041F0F#32, 0x404779A4#32, 0x5D886E17#32, 0x325F51EB#32, 0xD59BC0D1#32, 0xF2BCC18F#32, 0x41113564#32,
  0x257B7834#32, 0x602A9C60#32, 0xDFF8E8A3#32, 0x1F636C1B#32, 0x0E12B4C2#32, 0x02E1329E#32, 0xAF664FD1#32, 0xCAD18115#32,
  0x6B2395E0#32, 0x333E92E1#32, 0x3B240B62#32, 0xEEBEB922#32, 0x85B2A20E#32, 0xE6BA0D99#32, 0xDE720C8C#32, 0x2DA2F728#32,
  0xD0127845#32, 0x95B794FD#32, 0x647D0862#32, 0xE7CCF5F0#32, 0x5449A36F#32, 0x877D48FA#32, 0xC39DFD27#32, 0xF33E8D1E#32,
  0x0A476341#32, 0x992EFF74#32, 0x3A6F6EAB#32, 0xF4F8FD37#32, 0xA812DC60#32, 0xA1EBDDF8#32, 0x991BE14C#32, 0xDB6E6B0D#32,
  0xC67B5510#32, 0x6D672C37#32, 0x2765D43B#32, 0xDCD0E804#32, 0xF1290DC7#32, 0xCC00FFA3#32, 0xB5390F92#32, 0x690FED0B#32,
  0x667B9FFB#32, 0xCEDB7D9C#32, 0xA091CF0B#32, 0xD9155EA3#32, 0xBB132F88#32, 0x515BAD24#32, 0x7B9479BF#32, 0x763BD6EB#32,
  0x37392EB3#32, 0xCC115979#32, 0x8026E297#32, 0xF42E312D#32, 0x6842ADA7#32, 0xC66A2B3B#32, 0x12754CCC#32, 0x782EF11C#32,
  0x6A124237#32, 0xB79251E7#32, 0x06A1BBE6#32, 0x4BFB6350#32, 0x1A6B1018#32, 0x11CAEDFA#32, 0x3D25BDD8#32, 0xE2E1C3C9#32,
  0x44421659#32, 0x0A121386#32, 0xD90CEC6E#32, 0xD5ABEA2A#32, 0x64AF674E#32, 0xDA86A85F#32, 0xBEBFE988#32, 0x64E4C3FE#32,
  0x9DBC8057#32, 0xF0F7C086#32, 0x60787BF8#32, 0x6003604D#32, 0xD1FD8346#32, 0xF6381FB0#32, 0x7745AE04#32, 0xD736FCCC#32,
  0x83426B33#32, 0xF01EAB71#32, 0xB0804187#32, 0x3C005E5F#32, 0x77A057BE#32, 0xBDE8AE24#32, 0x55464299#32, 0xBF582E61#32,
  0x4E58F48F#32, 0xF2DDFDA2#32, 0xF474EF38#32, 0x8789BDC2#32, 0x5366F9C3#32, 0xC8B38E74#32, 0xB475F255#32, 0x46FCD9B9#32,
  0x7AEB2661#32, 0x8B1DDF84#32, 0x846A0E79#32, 0x915F95E2#32, 0x466E598E#32, 0x20B45770#32, 0x8CD55591#32, 0xC902DE4C#32,
  0xB90BACE1#32, 0xBB8205D0#32, 0x11A86248#32, 0x7574A99E#32, 0xB77F19B6#32, 0xE0A9DC09#32, 0x662D09A1#32, 0xC4324633#32,
  0xE85A1F02#32, 0x09F0BE8C#32, 0x4A99A025#32, 0x1D6EFE10#32, 0x1AB93D1D#32, 0x0BA5A4DF#32, 0xA186F20F#32, 0x2868F169#32,
  0xDCB7DA83#32, 0x573906FE#32, 0xA1E2CE9B#32, 0x4FCD7F52#32, 0x50115E01#32, 0xA70683FA#32, 0xA002B5C4#32, 0x0DE6D027#32,
  0x9AF88C27#32, 0x773F8641#32, 0xC3604C06#32, 0x61A806B5#32, 0xF0177A28#32, 0xC0F586E0#32, 0x006058AA#32, 0x30DC7D62#32,
  0x11E69ED7#32, 0x2338EA63#32, 0x53C2DD94#32, 0xC2C21634#32, 0xBBCBEE56#32, 0x90BCB6DE#32, 0xEBFC7DA1#32, 0xCE591D76#32,
  0x6F05E409#32, 0x4B7C0188#32, 0x39720A3D#32, 0x7C927C24#32, 0x86E3725F#32, 0x724D9DB9#32, 0x1AC15BB4#32, 0xD39EB8FC#32,
  0xED545578#32, 0x08FCA5B5#32, 0xD83D7CD3#32, 0x4DAD0FC4#32, 0x1E50EF5E#32, 0xB161E6F8#32, 0xA28514D9#32, 0x6C51133C#32,
  0x6FD5C7E7#32, 0x56E14EC4#32, 0x362ABFCE#32, 0xDDC6C837#32, 0xD79A3234#32, 0x92638212#32, 0x670EFA8E#32, 0x406000E0#32]

/-- `S0[3]`, src/fishes/blowfish.c. -/
def bfS0_3 : List W32 := [
  0x3A39CE37#32, 0xD3FAF5CF#32, 0xABC27737#32, 0x5AC52D1B#32, 0x5CB0679E#32, 0x4FA33742#32, 0xD3822740#32, 0x99BC9BBE#32,
  0xD5118E9D#32, 0xBF0F7315#32, 0xD62D1C7E#32, 0xC700C47B#32, 0xB78C1B6B#32, 0x21A19045#32, 0xB26EB1BE#32, 0x6A366EB4#32,
  0x5748AB2F#32, 0xBC946E79#32, 0xC6A376D2#32, 0x6549C2C8#32, 0x530FF8EE#32, 0x468DDE7D#32, 0xD5730A1D#32, 0x4CD04DC6#32,
  0x2939BBDB#32, 0xA9BA4650#32, 0xAC9526E8#32, 0xBE5EE304#32, 0xA1FAD5F0#32, 0x6A2D519A#32, 0x63EF8CE2#32, 0x9A86EE22#32,
  0xC089C2B8#32, 0x43242EF6#32, 0xA51E03AA#32, 0x9CF2D0A4#32, 0x83C061BA#32, 0x9BE96A4D#32, 0x8FE51550#32, 0xBA645BD6#32,
  0x2826A2F9#32, 0xA73A3AE1#32, 0x4BA99586#32, 0xEF5562E9#32, 0xC72FEFD3#32, 0xF752F7DA#32, 0x3F046F69#32, 0x77FA0A59#32,
  0x80E4A915#32, 0x87B08601#32, 0x9B09E6AD#32, 0x3B3EE593#32, 0xE990FD5A#32, 0x9E34D797#32, 0x2CF0B7D9#32, 0x022B8B51#32,
  0x96D5AC3A#32, 0x017DA67D#32, 0xD1CF3ED6#32, 0x7C7D2D28#32, 0x1F9F25CF#32, 0xADF2B89B#32, 0x5AD6B472#32, 0x5A88F54C#32,
  0xE029AC71#32, 0xE019A5E6#32, 0x47B0ACFD#32, 0xED93FA9B#32, 0xE8D3C48D#32, 0x283B57CC#32, 0xF8D56629#32, 0x79132E28#32,
  0x785F0191#32, 0xED756055#32, 0xF7960E44#32, 0xE3D35E8C#32, 0x15056DD4#32, 0x88F46DBA#32, 0x03A16125#32, 0x0564F0BD#32,
  0xC3EB9E15#32, 0x3C9057A2#32, 0x97271AEC#32, 0xA93A072A#32, 0x1B3F6D9B#32, 0x1E6321F5#32, 0xF59C66FB#32, 0x26DCF319#32,
  0x7533D928#32, 0xB155FDF5#32, 0x03563482#32, 0x8ABA3CBB#32, 0x28517711#32, 0xC20AD9F8#32, 0xABCC5167#32, 0xCCAD925F#32,
  0x4DE81751#32, 0x3830DC8E#32, 0x379D5862#32, 0x9320F991#32, 0xEA7A90C2#32, 0xFB3E7BCE#32, 0x5121CE64#32, 0x774FBE32#32,
  0xA8B6E37E#32, 0xC3293D46#32, 0x48DE5369#32, 0x6413E680#32, 0xA2AE0810#32, 0xDD6DB224#32, 0x69852DFD#32, 0x09072166#32,
  0xB39A460A#32, 0x6445C0DD#32, 0x586CDECF#32, 0x1C20C8AE#32, 0x5BBEF7DD#32, 0x1B588D40#32, 0xCCD2017F#32, 0x6BB4E3BB#32,
  0xDDA26A7E#32, 0x3A59FF45#32, 0x3E350A44#32, 0xBCB4CDD5#32, 0x72EACEA8#32, 0xFA6484BB#32, 0x8D6612AE#32, 0xBF3C6F47#32,
  0xD29BE463#32, 0x542F5D9E#32, 0xAEC2771B#32, 0xF64E6370#32, 0x740E0D8D#32, 0xE75B1357#32, 0xF8721671#32, 0xAF537D5D#32,
  0x4040CB08#32, 0x4EB4E2CC#32, 0x34D2466A#32, 0x0115AF84#32, 0xE1B00428#32, 0x95983A1D#32, 0x06B89FB4#32, 0xCE6EA048#32,
  0x6F3F3B82#32, 0x3520AB82#32, 0x011A1D4B#32, 0x277227F8#32, 0x611560B1#32, 0xE7933FDC#32, 0xBB3A792B#32, 0x344525BD#32,
  0xA08839E1#32, 0x51CE794B#32, 0x2F32C9B7#32, 0xA01FBAC9#32, 0xE01CC87E#32, 0xBCC7D1F6#32, 0xCF0111C3#32, 0xA1E8AAC7#32,
  0x1A908749#32, 0xD44FBD9A#32, 0xD0DADECB#32, 0xD50ADA38#32, 0x0339C32A#32, 0xC6913667#32, 0x8DF9317C#32, 0xE0B12B4F#32,
  0xF79E59B7#32, 0x43F5BB3A#32, 0xF2D519FF#32, 0x27D9459C#32, 0xBF97222C#32, 0x15E6FC2A#32, 0x0F91FC71#32, 0x9B941525#32,
  0xFAE59361#32, 0xCEB69CEB#32, 0xC2A86459#32, 0x12BAA8D1#32, 0xB6C1075E#32, 0xE3056A0C#32, 0x10D25065#32, 0xCB03A442#32,
  0xE0EC6E0E#32, 0x1698DB3B#32, 0x4C98A0BE#32, 0x3278E964#32, 0x9F1F9532#32, 0xE0D392DF#32, 0xD3A0342B#32, 0x8971F21E#32,
  0x1B0A7441#32, 0x4BA3348C#32, 0xC5BE7120#32, 0xC37632D8#32, 0xDF359F8D#32, 0x9B992F2E#32, 0xE60B6F47#32, 0x0FE3F11D#32,
  0xE54CDA54#32, 0x1EDAD891#32, 0xCE6279CF#32, 0xCD3E7E6F#32, 0x1618B166#32, 0xFD2C1D05#32, 0x848FD2C5#32, 0xF6FB2299#32,
  0xF523F357#32, 0xA6327623#32, 0x93A83531#32, 0x56CCCD02#32, 0xACF08162#32, 0x5A75EBB5#32, 0x6E163697#32, 0x88D273CC#32,
  0xDE966292#32, 0x81B949D0#32, 0x4C50901B#32, 0x71C65614#32, 0xE6C6C7BD#32, 0x327A140A#32, 0x45E1D006#32, 0xC3F27B9A#32,
  0xC9AA53FD#32, 0x62A80F00#32, 0xBB25BFE2#32, 0x35BDD2F6#32, 0x71126905#32, 0xB2040222#32, 0xB6CBCF7C#32, 0xCD769C2B#32,
  0x53113EC0#32, 0x1640E3D3#32, 0x38ABBD60#32, 0x2547ADF0#32, 0xBA38209C#32, 0xF746CE76#32, 0x77AFA1C5#32, 0x20756060#32,
  0x85CBFE4E#32, 0x8AE88DD8#32, 0x7AAAF9B0#32, 0x4CF9AA7E#32, 0x1948C25C#32, 0x02FB8A8C#32, 0x01C36AE4#32, 0xD6EBE1F9#32,
  0x90D4F869#32, 0xA65CDEA0#32, 0x3F09252D#32, 0xC208E69F#32, 0xB74E6132#32, 0xCE77E25B#32, 0x578FDFE3#32, 0x3AC372E6#32]

/-- `S0`, src/fishes/blowfish.c:17-146. -/
def bfS0 : List (List W32) := [bfS0_0, bfS0_1, bfS0_2, bfS0_3]

end Pgfe.Model
