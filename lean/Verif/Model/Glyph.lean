import Verif.Model.Canvas
import Verif.Model.Axis
import Verif.Model.Query
/-!
# The font and how a text is drawn with it (draw/iosevka/font.go, draw/common.go:82-90)

`font.Drawer.DrawString`, `basicfont.Face.Glyph` (golang.org/x/image/font) and `draw.DrawMask` (image/draw: `clip` and `drawGlyphOver`) are library code, transcribed since the pictures of the texts rest on them. The dot is at a whole pixel.
-/
namespace Rothko

/-- The masks of the glyphs (draw/iosevka/font.go:28-1565): the 84 bytes of a glyph, 14 rows of 6, as a number, the first byte being the highest. -/
def glyphs : List Nat := [
  0x000000000000000000000000000000000000000000000000000000000000000000000000000000000000000000000000000000000000000000000000000000000000000000000000000000000000000000000000,
  0x000000000000000000000000000000000000000000000000000000000000000000000000000000000000000000000000000000000000000000000000000000000000000000000000000000000000000000000000,
  0x00000000000000000000000000004e4e000000006060000000006060000000006060000000006060000000005454000000000000000000001f1f00000000a1a00000000005050000000000000000000000000000,
  0x00000000000000290d0d2800009c30349800009c2f34970000982a309200005617185500000000000000000000000000000000000000000000000000000000000000000000000000000000000000000000000000,
  0x00000000000000613737610000784444780000784444780060d3c2c2d3600078444478000078444478000078444478004ec2aaaac24e12895b5b8912007844447800007844447800000704040700000000000000,
  0x00000606000000006060000000149e9f1b0009c29691c212368c606040220ac8826000000028cbae10000000609ebf021727606091301fbb757ac40f003bbcb83000000060600000000016160000000000000000,
  0x00000000000000000000000030b900009b103ce40025ae0030b9008e4600000009c901000000627200000000c210000000369e00952700a03400e43c11c20000e43c000000000000000000000000000000000000,
  0x0000000000000000000000000059b7b41f0000c70233930000bf002d960000a542b82800004afe3b2d230cc352b173544a780046e85233990000b155008da8aba599000009090000000000000000000000000000,
  0x00000000000000001b1b00000000686400000000686300000000645e0000000037360000000000000000000000000000000000000000000000000000000000000000000000000000000000000000000000000000,
  0x00000018b109000007bf2d000000786000000000c402000000239e000000004a77000000005668000000004d71000000002e920000000003bf0000000000933c0000000016c30f0000000036bc09000000000f00,
  0x0ab1160000000030bb060000000061750000000002be00000000009e1d00000000774400000000685200000000714800000000922600000000ba020000003c8f00000011c31500000abd33000000000f00000000,
  0x0000000000000000000000000000000000000000000000000000555300002b365854362a1c72c9c8721c001fabab1d0000721e207100000000000000000000000000000000000000000000000000000000000000,
  0x00000000000000000000000000000000000000000000000000005151000000006060000028accbcbac28000060600000000060600000000007070000000000000000000000000000000000000000000000000000,
  0x0000000000000000000000000000000000000000000000000000000000000000000000000000000000000000000000000000000000000000424200000000b5bf000000002a9b000000008740000000003a000000,
  0x00000000000000000000000000000000000000000000000000000000000000000000000028acacacac28000000000000000000000000000000000000000000000000000000000000000000000000000000000000,
  0x0000000000000000000000000000000000000000000000000000000000000000000000000000000000000000000000000000000000000000424200000000b5b40000000006050000000000000000000000000000,
  0x00000000782000000000c3000000002a9a00000000764e00000000b90a00000011b2000000005a6a00000000a51e00000003c0000000003e86000000008a3a00000000c10200000022a100000000010100000000,
  0x0000000000000000000000000059b6b6560017bb0203bd154b7300007548546c00006c54546c83816c54546c0e0e6c544e6f0000724d23a90000ab1f007eacad7c00000008080000000000000000000000000000,
  0x00000000000000000000000000078398000009b952bc0000000504bc0000000004bc0000000004bc0000000004bc0000000004bc0000000004bc0000000004bc0000000000000000000000000000000000000000,
  0x0000000000000000000000000068b4b35f0027ae0002b51e040d0000823c00000008c10b00000aac45000013bb3d000000ac3b00000013b30000000032dbacacac28000000000000000000000000000000000000,
  0x000000000000000000000000005bb7b65d0015bc0201b917020e0000922f00000a44b302000089d64a0000000004ad22000000005a613e8800008d3f0195aaad9100000009090000000000000000000000000000,
  0x0000000000000000000000000000008d5e00000030d774000000a960740000427b4c740001b30a4c740045c988abbe1f0b24246587080000004c74000000004c7400000000000000000000000000000000000000,
  0x0000000000000000000000001ac2acacac0020a00000000020a00000000020c6a2a431001edc1615c508000f0000833f00040000764925a10000b6190082acb07100000009060000000000000000000000000000,
  0x0000000000000000000000000000068338000006b6510000007e5600000002ba4a51070026ed6868b7004091000091324d720000744a22ad0000ad1e007dadad7c00000008080000000000000000000000000000,
  0x00000000000000000000000028acacacc12f00000000c10b00000024a7000000007c5000000000c2070000002c9c00000000844400000000c4030000003494000000000000000000000000000000000000000000,
  0x000000000000000000000000005bb7b659000ebd0202be0b15ad0000b01300a35255a100000ee0df0c0002b44346b40240860000863d3d8d00008e390197aaa9950100000a0a0000000000000000000000000000,
  0x0000000000000000000000000059b6b6540017bb0204bf144b7300007647457b00007f540ac41a20d454002b9a927e53000800007c4224a40001bb10007badb46400000009060000000000000000000000000000,
  0x00000000000000000000000000000000000000000000000000003f3f00000000b6b500000000070700000000000000000000000000000000424200000000b5b40000000006050000000000000000000000000000,
  0x00000000000000000000000000000000000000000000000000003f3f00000000b6b500000000070700000000000000000000000000000000424200000000b5bf000000002a9b000000008740000000003a000000,
  0x000000000000000000000000000000000000000000027c3200001cb15c000052b220000034b003000000068a8c060000000049b9290000000017af31000000000101000000000000000000000000000000000000,
  0x00000000000000000000000000000000000000000000000000000000000028acacacac280000000000001b747474741b0d383838380d000000000000000000000000000000000000000000000000000000000000,
  0x000000000000000000000000000000000000337a01000000005eaf1a0000000023b44f0000000004b2340000078e8a06002cba46000032ae17000000010100000000000000000000000000000000000000000000,
  0x0000000000000000000000000078b2b25e00319f0001b519040a0000972e00000021c501000006c4270000004781000000002021000000001f1f00000000a1a00000000005050000000000000000000000000000,
  0x0050b2b24e0011c20405c10f3887000088363c840990d73c3c845e6e843c3c847050843c3c847050843c3c847050843c3c847050843b3c845685ae213a8503715c001baf000000000081ab90800000000b1c1800,
  0x0000000000000000000000000000696800000000b6b1000000209da01900006a53555e0000ab1417a40000cc3030c50015cf7c7ccf10328b00008f2c3c840000843b000000000000000000000000000000000000,
  0x00000000000000000000000030beaca825003c840020b5003c840000bb003c84002ca8003cd7addb49003c840004b31b3c840000744a3c840002b3223cd7acba6400000000000000000000000000000000000000,
  0x0000000000000000000000000064b3b3610022b10101b223506f00000f05546c00000000546c00000000546c00000000526d00000000309e00009828008faaab8b00000009090000000000000000000000000000,
  0x00000000000000000000000030beaca426003c84001ec6043c8400008c393c8400006e513c8400006c543c8400006c533c84000083403c84000ac7093cd7acb74100000000000000000000000000000000000000,
  0x00000000000000000000000000abacacac2800bc0000000000bc0000000000be18180d0000cc9494530000bc0000000000bc0000000000bc0000000000ceacacac28000000000000000000000000000000000000,
  0x00000000000000000000000000abacacac2800bc0000000000bc0000000000be18180d0000cc9494530000bc0000000000bc0000000000bc0000000000bc00000000000000000000000000000000000000000000,
  0x0000000000000000000000000064b3b3610022b10101b223506f00000f05546c00000000546c00acb62d546c0000843c526d00008639319e0000b017008da9af7c00000009070000000000000000000000000000,
  0x000000000000000000000000306b00006b303c840000843c3c840000843c3c840000843c3cd7acacd73c3c840000843c3c840000843c3c840000843c3c840000843c000000000000000000000000000000000000,
  0x0000000000000000000000000076b9b976000000606000000000606000000000606000000000606000000000606000000000606000000000606000000076cbcb7600000000000000000000000000000000000000,
  0x000000000000000000000000000053acc40000000000c00000000000c00000000000c00000000000c00000000000c00000000000c00058660009c00008ada1be470000000d020000000000000000000000000000,
  0x000000000000000000000000306b00008a1b3c84001eb3003c8401b326003c84888700003cd893be00003cae008740003c84001fa5003c840000b70a3c8400007e40000000000000000000000000000000000000,
  0x00000000000000000000000000980000000000bc0000000000bc0000000000bc0000000000bc0000000000bc0000000000bc0000000000bc0000000000ceacacac38000000000000000000000000000000000000,
  0x00000000000000000000000030b40000b6303cfc181cfc3c3ccc5a5ecc3c3c8d9a9e8e3c3c7bb0ae7d3c3c7e908c823c3c802221843c3c830000843c3c840000843c000000000000000000000000000000000000,
  0x00000000000000000000000030c604006b303cee4a00843c3c9ea100843c3c84b309843c3c846854843c3c8414a7843c3c8400ae913c3c840060e03c3c84000ef73c000000000000000000000000000000000000,
  0x0000000000000000000000000063b3b3610023b30101b321506f0000704e546c00006c54546c00006c54546c00006c54526d00006e51319e00009f2d008daaaa8c00000009090000000000000000000000000000,
  0x00000000000000000000000009c5acaf48000cb40008bd170cb4000074490cb40000982f0cd87c9b9a000cc22f1a00000cb4000000000cb4000000000cb400000000000000000000000000000000000000000000,
  0x0000000000000000000000000063b3b3610023b30101b321506f0000704e546c00006c54546c00006c54546c00006c54526d00006e51319e00009f2d008eabac8d000000498c000000000189ad08000000000000,
  0x00000000000000000000000030beacaf48003c840008bd173c84000074493c840000982f3cc07c9c9a003c9b36c60b003c84004f81003c840000bc093c840000843c000000000000000000000000000000000000,
  0x000000000000000000000000005eb3b274001ab60100a131319100000a0403c1360000000017b08b06000000005eac00000000009e2733810000a921019ea9af870000000b070000000000000000000000000000,
  0x00000000000000000000000028acb9b9ac28000060600000000060600000000060600000000060600000000060600000000060600000000060600000000060600000000000000000000000000000000000000000,
  0x000000000000000000000000306b00006b303c840000843c3c840000843c3c840000843c3c840000843c3c840000843c3a85000086391bb10000b017007eaeae7c00000008080000000000000000000000000000,
  0x000000000000000000000000306b00006b30348900008d301ba20000a81500bc0000bb0000b10c12ad000072484e6a00002b8e9323000000b6b0000000008a860000000000000000000000000000000000000000,
  0x000000000000000000000000306b00006b303c840000843c3a84000086382f8a17179029169b726ea20e00a39390a800009794949b00009484878e00006e54566a00000000000000000000000000000000000000,
  0x0000000000000000000000002e6e00006f2d19ae0000af1700b42223b300002ab1b2290000009c9a00000018c1c1160000a13638a00011b50000b710368900008a35000000000000000000000000000000000000,
  0x0000000000000000000000002f6c00006d2e249e0000a01e02c20203c201007657597400000ac2c10900000074730000000060600000000060600000000060600000000000000000000000000000000000000000,
  0x00000000000000000000000028acacacc32f00000009cb060000006e6e00000006cc09000000667600000003cb0c0000005a8200000001c81200000035e7acacac28000000000000000000000000000000000000,
  0x009aacacac0000bc0000000000bc0000000000bc0000000000bc0000000000bc0000000000bc0000000000bc0000000000bc0000000000bc0000000000bc0000000000bc0000000000c3a8a8a800000304040400,
  0x22760000000001c200000000009e26000000005272000000000cb70000000000b40f000000006e560000000021a10000000000c102000000008a3a000000003e860000000003c00000000000a51e000000000101,
  0x00acacac9a0000000000bc0000000000bc0000000000bc0000000000bc0000000000bc0000000000bc0000000000bc0000000000bc0000000000bc0000000000bc0000000000bc0000a8a8a8c300000404040300,
  0x0000000000000000212000000016b8b6130002b32d2faf01023500003602000000000000000000000000000000000000000000000000000000000000000000000000000000000000000000000000000000000000,
  0x0000000000000000000000000000000000000000000000000000000000000000000000000000000000000000000000000000000000000000000000000000000000000000000000001c787878781c0c343434340c,
  0x000000000000001e0100000000777a00000000009d430000000006360000000000000000000000000000000000000000000000000000000000000000000000000000000000000000000000000000000000000000,
  0x00000000000000000000000000000000000000000000000000176561100011c54d53c2050d2900008d340041a0acd73c29b71500863c4b7c0000bc3c0abea0a0ae3c000010010000000000000000000000000000,
  0x000000000000000000000000306b000000003c84000000003c844b6914003cd65b55c7033ca100008b383c8400006d523c890000724d3cc10000ac233cb1a2b18e000000030c0000000000000000000000000000,
  0x000000000000000000000000000000000000000000000000000d62620e0002bb5752bf053b8800005a20536c000000004e6f0000020021a90000a226007dafab8500000007090000000000000000000000000000,
  0x000000000000000000000000000000006b3000000000843c0014694a843c05c8545cd53c3e870000a33c536c0000853c4e6f00008a3c27aa0000c23c0090b0a2b03c00000c030000000000000000000000000000,
  0x000000000000000000000000000000000000000000000000000d62610c0002bc5455bb023b8700008b3653b88484b9524e862828280d20ad00006e260079b2a795000000070a0000000000000000000000000000,
  0x0000000000000000000f0600000068afc2220000c1022d300000c000000028acebacac000000c00000000000c00000000000c00000000000c00000000000c0000000000000000000000000000000000000000000,
  0x0000000000000000000000000000000000000000000000000014694a2f1505c8545cd53c3e870000a33c536c0000853c4e6f00008a3c27aa0000c23c0090b0a2b13b00080c03a02219bf2f4eb800002882720e00,
  0x000000000000000000000000306b000000003c84000000003c844b670f003cd65b5cbc003ca10000a3223c840000853a3c840000843c3c840000843c3c840000843c000000000000000000000000000000000000,
  0x000000000000000000000000000069680000000027270000085c5c220000075092600000000060600000000060600000000060600000000051730000000008adad22000000000000000000000000000000000000,
  0x000000000000000000000000000000b41d00000000470700001f5c5c0b00001b50bb20000000009c20000000009c20000000009c20000000009c20000000009c2000330100a914007d703aba000003687f1a0000,
  0x000000000000000000000000306b000000003c84000000003c84000037113c84001db2043c8423b318003cbfbbab00003cb2058b4c003c84000cc0013c8400008e38000000000000000000000000000000000000,
  0x00000000000000000000000010acb94e0000000060600000000060600000000060600000000060600000000060600000000060600000000051730000000008adad22000000000000000000000000000000000000,
  0x0000000000000000000000000000000000000000000000001e4c592a550054b2a996b22a546e63626f50546c60606c54546c60606c54546c60606c54546c60606c54000000000000000000000000000000000000,
  0x000000000000000000000000000000000000000000000000152f4b670f003cd65b5cbc003ca10000a3223c840000853a3c840000843c3c840000843c3c840000843c000000000000000000000000000000000000,
  0x000000000000000000000000000000000000000000000000000d62610c0002bc5455bb023b8700008b36536c00006d524e6f0000724d23a90000ab1f007eacad7c00000008080000000000000000000000000000,
  0x000000000000000000000000000000000000000000000000152f4b6914003cd65b55c7033ca100008b383c8400006d523c890000724d3cc10000ac233cb1a2b18e003c84030c00003c84000000001b3b00000000,
  0x0000000000000000000000000000000000000000000000000014694a2f1505c8545cd53c3e870000a33c536c0000853c4e6f00008a3c27aa0000c23c0090b0a2b03c00000c03843c00000000843c000000003b1b,
  0x000000000000000000000000000000000000000000000000002f1c6348000084ac49a13300846700000000843f00000000843c00000000843c00000000843c000000000000000000000000000000000000000000,
  0x00000000000000000000000000000000000000000000000000196565180014c54a4bc316369300000d0002a7ad761d000000184fc91113470000903403a2a8a7a00300000b070000000000000000000000000000,
  0x0000000000000000000000000000980000000000bc000000225cd45c4c001e50d15042000000bc0000000000bc0000000000bc0000000000c2020baa00005fb5bc46000000090600000000000000000000000000,
  0x000000000000000000000000000000000000000000000000152f00002f153c840000843c3c840000843c3c840000843c388900008a3c14bd0000c23c007fb6a2b03c00000c030000000000000000000000000000,
  0x000000000000000000000000000000000000000000000000152f00002f15348900008b3311ab0000af0e00b90608b60000724e5468000014abad0f00000097930000000000000000000000000000000000000000,
  0x000000000000000000000000000000000000000000000000152f00002f153c840000843c3885000087351f9552519b1901a29290a70000969193970000765e607400000000000000000000000000000000000000,
  0x0000000000000000000000000000000000000000000000001333000033120ac30708c309005b868859000000abaa0000000dc4c30c000096494b95001eae0000ae1c000000000000000000000000000000000000,
  0x000000000000000000000000000000000000000000000000152f00002f152f930000932d06c20000c10300a1242a9d0000487c8444000004bec203000000929000000000923600000000c0000000000054000000,
  0x000000000000000000000000000000000000000000000000155c5c5c5c1512505055e01c00000086620000003ea800000010c611000000a64100000032edacacac28000000000000000000000000000000000000,
  0x00000e93ad000000984900000000bc04000000008345000000003b87000000006f69000000c6d004000000089b4e00000000368a000000006e5a00000000b50c00000000ac240000000025b79800000000001500,
  0x00004b4b0000000060600000000060600000000060600000000060600000000060600000000060600000000060600000000060600000000060600000000060600000000060600000000060600000000001010000,
  0x00ad930d000000004a950000000006bc000000004981000000008a38000000006d6b0000000005d1c50000005198070000008c34000000005c6c000000000fb50000000025a900000099b7230000001400000000,
  0x00000000000000000000000000000000000000000000000000000000000000263d000e200bb49c2d75445d4c10b2a400000000060100000000000000000000000000000000000000000000000000000000000000]

/-- A byte of a mask (draw/iosevka/font.go:28-1565). -/
def maskAt (g k : Nat) : UInt8 := UInt8.ofNat (g / 256 ^ (83 - k))

/-- The place of a character's glyph (draw/iosevka/font.go:1566-1569; `Glyph`, library code): `none` if the font has none, as it has none for U+FFFD, which would be drawn instead. -/
def glyphOf (r : Nat) : Option Nat := if 13 ≤ r ∧ r < 14 then some (r - 13) else if 32 ≤ r ∧ r < 127 then some (r - 32 + 1) else none

/-- The masks of the glyphs of a text (draw/axis/axis.go:213,331; `DrawString`, library code): a character without one is left out. -/
def textGlyphs (t : Bytes) : List Nat := (runes t).filterMap (fun c => (glyphOf c.1).map (fun i => glyphs.getD i 0))

/-- `drawGlyphOver` (library code; draw/axis/axis.go:163-167) with black (`r = 0`, `a = 65535`): a byte of a colour under the mask's byte `v`. -/
def inkByte (v old : UInt8) : UInt8 := UInt8.ofNat (old.toNat * ((65535 - v.toNat * 257) * 257) / 65535 / 256)

/-- The same for the alpha (library code; draw/axis/axis.go:163-167). -/
def inkAlpha (v old : UInt8) : UInt8 := UInt8.ofNat ((old.toNat * ((65535 - v.toNat * 257) * 257) + 65535 * (v.toNat * 257)) / 65535 / 256)

/-- One pixel of a glyph (draw/common.go:82-90; `clip`, `drawGlyphOver`, library code). A pixel outside of `Rect`, from `(-X, -Y)` to `(Width, Height)`, is left out. One in it but outside of `Pix` would panic; views are inside of their canvas (C55). -/
def inkPixel (c : Canvas) (x y : Int) (v : UInt8) (pix : Bytes) : Bytes :=
  if v = 0 ∨ ¬ (-c.x ≤ x ∧ x < c.width ∧ -c.y ≤ y ∧ y < c.height) then pix
  else match c.raw pix x y with
    | some [r, g, b, a] => (overwrite pix (c.imageOffset x y) (c.imageOffset x y + 4) [inkByte v r, inkByte v g, inkByte v b, inkAlpha v a]).getD pix
    | _ => pix

/-- The pixels of a glyph from the `k`-th on, `n` of them, with the dot at `(x, y)`: 11 rows are above it (draw/iosevka/font.go:18-25; `drawGlyphOver`, library code). -/
def inkGlyph (c : Canvas) (x y : Int) (g : Nat) : Nat → Nat → Bytes → Bytes
  | _, 0, pix => pix
  | k, n + 1, pix => inkGlyph c x y g (k + 1) n (inkPixel c (x + (k % 6 : Nat)) (y - 11 + (k / 6 : Nat)) (maskAt g k) pix)

/-- Glyphs one after the other, 6 pixels apart (draw/iosevka/font.go:19; `DrawString`, library code). -/
def inkGlyphs (c : Canvas) (y : Int) : Int → List Nat → Bytes → Bytes
  | _, [], pix => pix
  | x, g :: gs, pix => inkGlyphs c y (x + 6) gs (inkGlyph c x y g 0 84 pix)

/-- `DrawString` of a text on a view with the dot at `(x, y)` (draw/axis/axis.go:213,331, draw/observations/obs.go:107-115; library code). -/
def inkText (c : Canvas) (x y : Int) (t : Bytes) (pix : Bytes) : Bytes := inkGlyphs c y x (textGlyphs t) pix

end Rothko
