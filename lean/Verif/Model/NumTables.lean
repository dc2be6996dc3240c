import Verif.Model.Basic

/-!
# Tables of decimal multipliers

The two tables named `s_decimal_multipliers`, copied from /repo/asteria/src/rocket/ascii_numput.cpp:382-1014 and
/repo/asteria/src/rocket/ascii_numget.cpp:247-898.
-/

namespace Asteria.RealText

/-- `decimal_multiplier`, ascii_numput.cpp:374-379: the bit pattern of the least `double` that is not less than a power of
ten; the reciprocal of that power, times 10^17, as a mantissa of 64 bits and a base-2 exponent. -/
structure PutEntry where
  bound : Nat
  mant : Nat
  exp2 : Int

/-- `s_decimal_multipliers`, ascii_numput.cpp:382-1014, for 10^-324 up to 10^308. -/
def putTable : List PutEntry := [
  ⟨0x0000000000000000, 0xDB68C2CA82ED2A06, 1133⟩,
  ⟨0x0000000000000003, 0xAF87023B9BF0EE6B, 1130⟩,
  ⟨0x0000000000000015, 0x8C6C01C9498D8B89, 1127⟩,
  ⟨0x00000000000000CB, 0xE0ACCFA875AF45A8, 1123⟩,
  ⟨0x00000000000007E9, 0xB3BD72ED2AF29E20, 1120⟩,
  ⟨0x0000000000004F11, 0x8FCAC257558EE4E7, 1117⟩,
  ⟨0x00000000000316A3, 0xE61136F2227E3B0A, 1113⟩,
  ⟨0x00000000001EE257, 0xB80DC58E81FE95A2, 1110⟩,
  ⟨0x000000000134D762, 0x933E37A534CBAAE8, 1107⟩,
  ⟨0x000000000C1069CE, 0xEB96BF6EBADF77D9, 1103⟩,
  ⟨0x0000000078A42206, 0xBC789925624C5FE1, 1100⟩,
  ⟨0x00000004B6695433, 0x96C6E0EAB509E64E, 1097⟩,
  ⟨0x0000002F201D49FC, 0xF13E34AABB430A16, 1093⟩,
  ⟨0x000001D74124E3D2, 0xC0FE908895CF3B45, 1090⟩,
  ⟨0x000012688B70E62C, 0x9A65406D44A5C904, 1087⟩,
  ⟨0x0000B8157268FDAF, 0xF70867153AA2DB39, 1083⟩,
  ⟨0x000730D67819E8D3, 0xC5A05277621BE294, 1080⟩,
  ⟨0x0031FA182C40C60E, 0x9E19DB92B4E31BAA, 1077⟩,
  ⟨0x0066789E3750F791, 0xFCF62C1DEE382C43, 1073⟩,
  ⟨0x009C16C5C5253576, 0xCA5E89B18B602369, 1070⟩,
  ⟨0x00D18E3B9B37416A, 0xA1E53AF46F801C54, 1067⟩,
  ⟨0x0105F1CA820511C4, 0x81842F29F2CCE376, 1064⟩,
  ⟨0x013B6E3D22865635, 0xCF39E50FEAE16BF0, 1060⟩,
  ⟨0x017124E63593F5E1, 0xA5C7EA73224DEFF4, 1057⟩,
  ⟨0x01A56E1FC2F8F359, 0x849FEEC281D7F329, 1054⟩,
  ⟨0x01DAC9A7B3B73030, 0xD433179D9C8CB842, 1050⟩,
  ⟨0x0210BE08D0527E1E, 0xA9C2794AE3A3C69B, 1047⟩,
  ⟨0x0244ED8B04671DA5, 0x87CEC76F1C830549, 1044⟩,
  ⟨0x027A28EDC580E50E, 0xD94AD8B1C7380875, 1040⟩,
  ⟨0x02B059949B708F29, 0xADD57A27D29339F7, 1037⟩,
  ⟨0x02E46FF9C24CB2F3, 0x8B112E86420F6192, 1034⟩,
  ⟨0x03198BF832DFDFB0, 0xDE81E40A034BCF50, 1030⟩,
  ⟨0x034FEEF63F97D79C, 0xB201833B35D63F74, 1027⟩,
  ⟨0x0383F559E7BEE6C2, 0x8E679C2F5E44FF90, 1024⟩,
  ⟨0x03B8F2B061AEA072, 0xE3D8F9E563A198E6, 1020⟩,
  ⟨0x03EF2F5C7A1A488E, 0xB6472E511C81471E, 1017⟩,
  ⟨0x04237D99CC506D59, 0x91D28B7416CDD27F, 1014⟩,
  ⟨0x04585D003F6488AF, 0xE950DF20247C83FE, 1010⟩,
  ⟨0x048E74404F3DAADB, 0xBAA718E68396CFFE, 1007⟩,
  ⟨0x04C308A831868AC9, 0x95527A5202DF0CCC, 1004⟩,
  ⟨0x04F7CAD23DE82D7B, 0xEEEA5D5004981479, 1000⟩,
  ⟨0x052DBD86CD6238DA, 0xBF21E44003ACDD2D, 997⟩,
  ⟨0x05629674405D6388, 0x98E7E9CCCFBD7DBE, 994⟩,
  ⟨0x05973C115074BC6A, 0xF4A642E14C6262C9, 990⟩,
  ⟨0x05CD0B15A491EB85, 0xC3B8358109E84F08, 987⟩,
  ⟨0x060226ED86DB3333, 0x9C935E00D4B9D8D3, 984⟩,
  ⟨0x0636B0A8E8920000, 0xFA856334878FC151, 980⟩,
  ⟨0x066C5CD322B68000, 0xC86AB5C39FA63441, 977⟩,
  ⟨0x06A1BA03F5B21000, 0xA0555E361951C367, 974⟩,
  ⟨0x06D62884F31E9400, 0x80444B5E7AA7CF86, 971⟩,
  ⟨0x070BB2A62FE63900, 0xCD3A1230C43FB270, 967⟩,
  ⟨0x07414FA7DDEFE3A0, 0xA42E74F3D032F526, 964⟩,
  ⟨0x0775A391D56BDC88, 0x83585D8FD9C25DB8, 961⟩,
  ⟨0x07AB0C764AC6D3AA, 0xD226FC195C6A2F8D, 957⟩,
  ⟨0x07E0E7C9EEBC444A, 0xA81F301449EE8C71, 954⟩,
  ⟨0x081521BC6A6B555D, 0x867F59A9D4BED6C1, 951⟩,
  ⟨0x084A6A2B85062AB4, 0xD732290FBACAF134, 947⟩,
  ⟨0x0880825B3323DAB1, 0xAC2820D9623BF42A, 944⟩,
  ⟨0x08B4A2F1FFECD15D, 0x89B9B3E11B6329BB, 941⟩,
  ⟨0x08E9CBAE7FE805B4, 0xDC5C5301C56B75F8, 937⟩,
  ⟨0x09201F4D0FF10390, 0xB049DC016ABC5E60, 934⟩,
  ⟨0x0954272053ED4474, 0x8D07E33455637EB3, 931⟩,
  ⟨0x098930E868E89591, 0xE1A63853BBD26452, 927⟩,
  ⟨0x09BF7D228322BAF6, 0xB484F9DC9641E9DB, 924⟩,
  ⟨0x09F3AE3591F5B4DA, 0x906A617D450187E3, 921⟩,
  ⟨0x0A2899C2F6732210, 0xE7109BFBA19C0C9E, 917⟩,
  ⟨0x0A5EC033B40FEA94, 0xB8DA1662E7B00A18, 914⟩,
  ⟨0x0A9338205089F29D, 0x93E1AB8252F33B46, 911⟩,
  ⟨0x0AC8062864AC6F44, 0xEC9C459D51852BA3, 907⟩,
  ⟨0x0AFE07B27DD78B14, 0xBD49D14AA79DBC83, 904⟩,
  ⟨0x0B32C4CF8EA6B6ED, 0x976E41088617CA02, 901⟩,
  ⟨0x0B677603725064A8, 0xF24A01A73CF2DCD0, 897⟩,
  ⟨0x0B9D53844EE47DD2, 0xC1D4CE1F63F57D73, 894⟩,
  ⟨0x0BD25432B14ECEA3, 0x9B10A4E5E9913129, 891⟩,
  ⟨0x0C06E93F5DA2824C, 0xF81AA16FDC1B81DB, 887⟩,
  ⟨0x0C3CA38F350B22DF, 0xC67BB4597CE2CE49, 884⟩,
  ⟨0x0C71E6398126F5CC, 0x9EC95D1463E8A507, 881⟩,
  ⟨0x0CA65FC7E170B33E, 0xFE0EFB53D30DD4D8, 877⟩,
  ⟨0x0CDBF7B9D9CCE00E, 0xCB3F2F7642717714, 874⟩,
  ⟨0x0D117AD428200C09, 0xA298F2C501F45F43, 871⟩,
  ⟨0x0D45D98932280F0B, 0x8213F56A67F6B29C, 868⟩,
  ⟨0x0D7B4FEB7EB212CE, 0xD01FEF10A657842D, 864⟩,
  ⟨0x0DB111F32F2F4BC1, 0xA67FF273B8460357, 861⟩,
  ⟨0x0DE5566FFAFB1EB1, 0x8533285C936B35DF, 858⟩,
  ⟨0x0E1AAC0BF9B9E65D, 0xD51EA6FA85785632, 854⟩,
  ⟨0x0E50AB877C142FFA, 0xAA7EEBFB9DF9DE8E, 851⟩,
  ⟨0x0E84D6695B193BF9, 0x8865899617FB1872, 848⟩,
  ⟨0x0EBA0C03B1DF8AF7, 0xDA3C0F568CC4F3E9, 844⟩,
  ⟨0x0EF047824F2BB6DA, 0xAE9672ABA3D0C321, 841⟩,
  ⟨0x0F245962E2F6A491, 0x8BAB8EEFB6409C1B, 838⟩,
  ⟨0x0F596FBB9BB44DB5, 0xDF78E4B2BD342CF7, 834⟩,
  ⟨0x0F8FCBAA82A16122, 0xB2C71D5BCA9023F9, 831⟩,
  ⟨0x0FC3DF4A91A4DCB5, 0x8F05B1163BA6832E, 828⟩,
  ⟨0x0FF8D71D360E13E3, 0xE4D5E82392A40516, 824⟩,
  ⟨0x102F0CE4839198DB, 0xB7118682DBB66A78, 821⟩,
  ⟨0x1063680ED23AFF89, 0x92746B9BE2F8552D, 818⟩,
  ⟨0x1098421286C9BF6B, 0xEA53DF5FD18D5514, 814⟩,
  ⟨0x10CE5297287C2F46, 0xBB764C4CA7A44410, 811⟩,
  ⟨0x1102F39E794D9D8C, 0x95F83D0A1FB69CDA, 808⟩,
  ⟨0x1137B08617A104EF, 0xEFF394DCFF8A948F, 804⟩,
  ⟨0x116D9CA79D89462A, 0xBFF610B0CC6EDD40, 801⟩,
  ⟨0x11A281E8C275CBDB, 0x9991A6F3D6BF1766, 798⟩,
  ⟨0x11D72262F3133ED1, 0xF5B5D7EC8ACB58A3, 794⟩,
  ⟨0x120CEAFBAFD80E85, 0xC491798A08A2AD4F, 791⟩,
  ⟨0x124212DD4DE70914, 0x9D412E0806E88AA6, 788⟩,
  ⟨0x12769794A160CB58, 0xFB9B7CD9A4A7443D, 784⟩,
  ⟨0x12AC3D79C9B8FE2E, 0xC94930AE1D529CFD, 781⟩,
  ⟨0x12E1A66C1E139EDD, 0xA1075A24E4421731, 778⟩,
  ⟨0x1316100725988694, 0x80D2AE83E9CE78F4, 775⟩,
  ⟨0x134B9408EEFEA839, 0xCE1DE40642E3F4BA, 771⟩,
  ⟨0x13813C85955F2924, 0xA4E4B66B68B65D61, 768⟩,
  ⟨0x13B58BA6FAB6F36D, 0x83EA2B892091E44E, 765⟩,
  ⟨0x13EAEE90B964B048, 0xD31045A8341CA07D, 761⟩,
  ⟨0x1420D51A73DEEE2D, 0xA8D9D1535CE3B397, 758⟩,
  ⟨0x14550A6110D6A9B8, 0x8714A775E3E95C79, 755⟩,
  ⟨0x148A4CF9550C5426, 0xD8210BEFD30EFA5B, 751⟩,
  ⟨0x14C0701BD527B498, 0xACE73CBFDC0BFB7C, 748⟩,
  ⟨0x14F48C22CA71A1BE, 0x8A5296FFE33CC930, 745⟩,
  ⟨0x1529AF2B7D0E0A2D, 0xDD50F1996B947519, 741⟩,
  ⟨0x15600D7B2E28C65C, 0xB10D8E1456105DAE, 738⟩,
  ⟨0x159410D9F9B2F7F3, 0x8DA471A9DE737E25, 735⟩,
  ⟨0x15C91510781FB5F0, 0xE2A0B5DC971F303B, 731⟩,
  ⟨0x15FF5A549627A36C, 0xB54D5E4A127F59C9, 728⟩,
  ⟨0x16339874DDD8C624, 0x910AB1D4DB9914A1, 725⟩,
  ⟨0x16687E92154EF7AD, 0xE8111C87C5C1BA9A, 721⟩,
  ⟨0x169E9E369AA2B598, 0xB9A74A0637CE2EE2, 718⟩,
  ⟨0x16D322E220A5B17F, 0x9485D4D1C63E8BE8, 715⟩,
  ⟨0x1707EB9AA8CF1DDF, 0xEDA2EE1C7064130D, 711⟩,
  ⟨0x173DE6815302E556, 0xBE1BF1B059E9A8D7, 708⟩,
  ⟨0x1772B010D3E1CF56, 0x98165AF37B2153DF, 705⟩,
  ⟨0x17A75C1508DA432B, 0xF356F7EBF83552FF, 701⟩,
  ⟨0x17DD331A4B10D3F6, 0xC2ABF989935DDBFF, 698⟩,
  ⟨0x18123FF06EEA847A, 0x9BBCC7A142B17CCC, 695⟩,
  ⟨0x1846CFEC8AA52598, 0xF92E0C3537826146, 691⟩,
  ⟨0x187C83E7AD4E6EFE, 0xC75809C42C684DD2, 688⟩,
  ⟨0x18B1D270CC51055F, 0x9F79A169BD203E42, 685⟩,
  ⟨0x18E6470CFF6546B7, 0xFF290242C83396CF, 681⟩,
  ⟨0x191BD8D03F3E9864, 0xCC20CE9BD35C78A6, 678⟩,
  ⟨0x1951678227871F3F, 0xA34D721642B06085, 675⟩,
  ⟨0x1985C162B168E70F, 0x82A45B450226B39D, 672⟩,
  ⟨0x19BB31BB5DC320D2, 0xD106F86E69D785C8, 668⟩,
  ⟨0x19F0FF151A99F483, 0xA738C6BEBB12D16D, 665⟩,
  ⟨0x1A253EDA614071A4, 0x85C7056562757457, 662⟩,
  ⟨0x1A5A8E90F9908E0D, 0xD60B3BD56A5586F2, 658⟩,
  ⟨0x1A90991A9BFA58C8, 0xAB3C2FDDEEAAD25B, 655⟩,
  ⟨0x1AC4BF6142F8EEFA, 0x88FCF317F22241E3, 652⟩,
  ⟨0x1AF9EF3993B72AB9, 0xDB2E51BFE9D0696B, 648⟩,
  ⟨0x1B303583FC527AB4, 0xAF58416654A6BABC, 645⟩,
  ⟨0x1B6442E4FB671961, 0x8C469AB843B89563, 642⟩,
  ⟨0x1B99539E3A40DFB9, 0xE070F78D3927556B, 638⟩,
  ⟨0x1BCFA885C8D117A7, 0xB38D92D760EC4456, 635⟩,
  ⟨0x1C03C9539D82AEC8, 0x8FA475791A569D11, 632⟩,
  ⟨0x1C38BBA884E35A7A, 0xE5D3EF282A242E82, 628⟩,
  ⟨0x1C6EEA92A61C3119, 0xB7DCBF5354E9BECF, 625⟩,
  ⟨0x1CA3529BA7D19EB0, 0x9316FF75DD87CBD9, 622⟩,
  ⟨0x1CD8274291C6065B, 0xEB57FF22FC0C795A, 618⟩,
  ⟨0x1D0E3113363787F2, 0xBC4665B596706115, 615⟩,
  ⟨0x1D42DEAC01E2B4F7, 0x969EB7C47859E744, 612⟩,
  ⟨0x1D779657025B6235, 0xF0FDF2D3F3C30BA0, 608⟩,
  ⟨0x1DAD7BECC2F23AC2, 0xC0CB28A98FCF3C80, 605⟩,
  ⟨0x1DE26D73F9D764BA, 0x9A3C2087A63F639A, 602⟩,
  ⟨0x1E1708D0F84D3DE8, 0xF6C69A72A3989F5C, 598⟩,
  ⟨0x1E4CCB0536608D62, 0xC56BAEC21C7A1917, 595⟩,
  ⟨0x1E81FEE341FC585D, 0x9DEFBF01B061ADAC, 592⟩,
  ⟨0x1EB67E9C127B6E75, 0xFCB2CB35E702AF79, 588⟩,
  ⟨0x1EEC1E43171A4A12, 0xCA28A291859BBF94, 585⟩,
  ⟨0x1F2192E9EE706E4B, 0xA1BA1BA79E1632DD, 582⟩,
  ⟨0x1F55F7A46A0C89DE, 0x8161AFB94B44F57E, 579⟩,
  ⟨0x1F8B758D848FAC55, 0xCF02B2C21207EF2F, 575⟩,
  ⟨0x1FC1297872D9CBB5, 0xA59BC234DB398C26, 572⟩,
  ⟨0x1FF573D68F903EA3, 0x847C9B5D7C2E09B8, 569⟩,
  ⟨0x202AD0CC33744E4B, 0xD3FA922F2D1675F3, 565⟩,
  ⟨0x2060C27FA028B0EF, 0xA99541BF57452B29, 562⟩,
  ⟨0x2094F31F8832DD2B, 0x87AA9AFF79042287, 559⟩,
  ⟨0x20CA2FE76A3F9475, 0xD910F7FF28069DA5, 555⟩,
  ⟨0x21005DF0A267BCCA, 0xADA72CCC20054AEA, 552⟩,
  ⟨0x2134756CCB01ABFC, 0x8AEC23D680043BEF, 549⟩,
  ⟨0x216992C7FDC216FB, 0xDE469FBD99A05FE4, 545⟩,
  ⟨0x219FF779FD329CB9, 0xB1D219647AE6B31D, 542⟩,
  ⟨0x21D3FAAC3E3FA1F4, 0x8E41ADE9FBEBC27E, 539⟩,
  ⟨0x2208F9574DCF8A71, 0xE39C49765FDF9D95, 535⟩,
  ⟨0x223F37AD21436D0D, 0xB616A12B7FE617AB, 532⟩,
  ⟨0x227382CC34CA2428, 0x91ABB422CCB812EF, 529⟩,
  ⟨0x22A8637F41FCAD32, 0xE912B9D1478CEB18, 525⟩,
  ⟨0x22DE7C5F127BD87F, 0xBA756174393D88E0, 522⟩,
  ⟨0x23130DBB6B8D674F, 0x952AB45CFA97A0B3, 519⟩,
  ⟨0x2347D12A4670C123, 0xEEAABA2E5DBF6785, 515⟩,
  ⟨0x237DC574D80CF16C, 0xBEEEFB584AFF8604, 512⟩,
  ⟨0x23B29B69070816E3, 0x98BF2F79D5993803, 509⟩,
  ⟨0x23E7424348CA1C9C, 0xF46518C2EF5B8CD2, 505⟩,
  ⟨0x241D12D41AFCA3C3, 0xC38413CF25E2D70E, 502⟩,
  ⟨0x24522BC490DDE65A, 0x9C69A97284B578D8, 499⟩,
  ⟨0x2486B6B5B5155FF1, 0xFA42A8B73ABBF48D, 495⟩,
  ⟨0x24BC6463225AB7ED, 0xC83553C5C8965D3E, 492⟩,
  ⟨0x24F1BEBDF578B2F4, 0xA02AA96B06DEB0FE, 489⟩,
  ⟨0x25262E6D72D6DFB1, 0x802221226BE55A65, 486⟩,
  ⟨0x255BBA08CF8C979D, 0xCD036837130890A2, 482⟩,
  ⟨0x2591544581B7DEC2, 0xA402B9C5A8D3A6E8, 479⟩,
  ⟨0x25C5A956E225D673, 0x8335616AED761F20, 476⟩,
  ⟨0x25FB13AC9AAF4C0F, 0xD1EF0244AF236500, 472⟩,
  ⟨0x2630EC4BE0AD8F8A, 0xA7F26836F282B733, 469⟩,
  ⟨0x2665275ED8D8F36C, 0x865B86925B9BC5C3, 466⟩,
  ⟨0x269A71368F0F3047, 0xD6F8D7509292D604, 462⟩,
  ⟨0x26D086C219697E2D, 0xABFA45DA0EDBDE6A, 459⟩,
  ⟨0x2704A8729FC3DDB8, 0x899504AE72497EBB, 456⟩,
  ⟨0x2739D28F47B4D525, 0xDC21A1171D42645E, 452⟩,
  ⟨0x277023998CD10538, 0xB01AE745B101E9E5, 449⟩,
  ⟨0x27A42C7FF0054685, 0x8CE2529E2734BB1E, 446⟩,
  ⟨0x27D9379FEC069827, 0xE16A1DC9D8545E95, 442⟩,
  ⟨0x280F8587E7083E30, 0xB454E4A179DD1878, 439⟩,
  ⟨0x2843B374F06526DE, 0x9043EA1AC7E41393, 436⟩,
  ⟨0x2878A0522C7E7096, 0xE6D3102AD96CEC1E, 432⟩,
  ⟨0x28AEC866B79E0CBB, 0xB8A8D9BBE123F018, 429⟩,
  ⟨0x28E33D4032C2C7F5, 0x93BA47C980E98CE0, 426⟩,
  ⟨0x29180C903F7379F2, 0xEC5D3FA8CE427B00, 422⟩,
  ⟨0x294E0FB44F50586F, 0xBD176620A501FC00, 419⟩,
  ⟨0x2982C9D0B1923745, 0x9745EB4D50CE6333, 416⟩,
  ⟨0x29B77C44DDF6C516, 0xF209787BB47D6B85, 412⟩,
  ⟨0x29ED5B561574765C, 0xC1A12D2FC3978938, 409⟩,
  ⟨0x2A225915CD68C9FA, 0x9AE7575969460760, 406⟩,
  ⟨0x2A56EF5B40C2FC78, 0xF7D88BC24209A566, 402⟩,
  ⟨0x2A8CAB3210F3BB96, 0xC646D63501A1511E, 399⟩,
  ⟨0x2AC1EAFF4A98553E, 0x9E9F11C4014DDA7F, 396⟩,
  ⟨0x2AF665BF1D3E6A8D, 0xFDCB4FA002162A64, 392⟩,
  ⟨0x2B2BFF2EE48E0530, 0xCB090C8001AB551D, 389⟩,
  ⟨0x2B617F7D4ED8C33E, 0xA26DA3999AEF774A, 386⟩,
  ⟨0x2B95DF5CA28EF40E, 0x81F14FAE158C5F6F, 383⟩,
  ⟨0x2BCB5733CB32B111, 0xCFE87F7CEF46FF17, 379⟩,
  ⟨0x2C0116805EFFAEAB, 0xA6539930BF6BFF46, 376⟩,
  ⟨0x2C355C2076BF9A56, 0x850FADC09923329F, 373⟩,
  ⟨0x2C6AB328946F80EB, 0xD4E5E2CDC1D1EA97, 369⟩,
  ⟨0x2CA0AFF95CC5B093, 0xAA51823E34A7EEDF, 366⟩,
  ⟨0x2CD4DBF7B3F71CB8, 0x884134FE908658B3, 363⟩,
  ⟨0x2D0A12F5A0F4E3E5, 0xDA01EE641A708DEA, 359⟩,
  ⟨0x2D404BD984990E70, 0xAE67F1E9AEC07188, 356⟩,
  ⟨0x2D745ECFE5BF520B, 0x8B865B215899F46D, 353⟩,
  ⟨0x2DA97683DF2F268E, 0xDF3D5E9BC0F653E2, 349⟩,
  ⟨0x2DDFD424D6FAF031, 0xB2977EE300C50FE8, 346⟩,
  ⟨0x2E13E497065CD61F, 0x8EDF98B59A373FED, 343⟩,
  ⟨0x2E48DDBCC7F40BA7, 0xE498F455C38B997B, 339⟩,
  ⟨0x2E7F152BF9F10E90, 0xB6E0C377CFA2E12F, 336⟩,
  ⟨0x2EB36D3B7C36A91A, 0x924D692CA61BE759, 333⟩,
  ⟨0x2EE8488A5B445361, 0xEA1575143CF97227, 329⟩,
  ⟨0x2F1E5AACF2156839, 0xBB445DA9CA612820, 326⟩,
  ⟨0x2F52F8AC174D6124, 0x95D04AEE3B80ECE6, 323⟩,
  ⟨0x2F87B6D71D20B96D, 0xEFB3AB16C59B14A3, 319⟩,
  ⟨0x2FBDA48CE468E7C8, 0xBFC2EF456AE276E9, 316⟩,
  ⟨0x2FF286D80EC190DD, 0x9968BF6ABBE85F21, 313⟩,
  ⟨0x3027288E1271F514, 0xF5746577930D6501, 309⟩,
  ⟨0x305CF2B1970E7259, 0xC45D1DF942711D9B, 306⟩,
  ⟨0x309217AEFE690778, 0x9D174B2DCEC0E47C, 303⟩,
  ⟨0x30C69D9ABE034956, 0xFB5878494ACE3A60, 299⟩,
  ⟨0x30FC45016D841BAB, 0xC913936DD571C84D, 296⟩,
  ⟨0x3131AB20E472914B, 0xA0DC75F1778E39D7, 293⟩,
  ⟨0x316615E91D8F359E, 0x80B05E5AC60B6179, 290⟩,
  ⟨0x319B9B6364F30305, 0xCDE6FD5E09ABCF27, 286⟩,
  ⟨0x31D1411E1F17E1E3, 0xA4B8CAB1A1563F53, 283⟩,
  ⟨0x32059165A6DDDA5C, 0x83C7088E1AAB65DC, 280⟩,
  ⟨0x323AF5BF109550F3, 0xD2D80DB02AABD62C, 276⟩,
  ⟨0x3270D9976A5D5298, 0xA8ACD7C0222311BD, 273⟩,
  ⟨0x32A50FFD44F4A73E, 0x86F0AC99B4E8DAFE, 270⟩,
  ⟨0x32DA53FC9631D10D, 0xD7E77A8F87DAF7FC, 266⟩,
  ⟨0x3310747DDDDF22A8, 0xACB92ED9397BF997, 263⟩,
  ⟨0x3344919D5556EB52, 0x8A2DBF142DFCC7AC, 260⟩,
  ⟨0x3379B604AAACA627, 0xDD15FE86AFFAD913, 256⟩,
  ⟨0x33B011C2EAABE7D8, 0xB0DE65388CC8ADA9, 253⟩,
  ⟨0x33E41633A556E1CE, 0x8D7EB76070A08AED, 250⟩,
  ⟨0x34191BC08EAC9A42, 0xE264589A4DCDAB15, 246⟩,
  ⟨0x344F62B0B257C0D2, 0xB51D13AEA4A488DE, 243⟩,
  ⟨0x34839DAE6F76D884, 0x90E40FBEEA1D3A4B, 240⟩,
  ⟨0x34B8851A0B548EA4, 0xE7D34C64A9C85D45, 236⟩,
  ⟨0x34EEA6608E29B24D, 0xB975D6B6EE39E437, 233⟩,
  ⟨0x352327FC58DA0F70, 0x945E455F24FB1CF9, 230⟩,
  ⟨0x3557F1FB6F10934C, 0xED63A231D4C4FB28, 226⟩,
  ⟨0x358DEE7A4AD4B81F, 0xBDE94E8E43D0C8ED, 223⟩,
  ⟨0x35C2B50C6EC4F314, 0x97EDD871CFDA3A57, 220⟩,
  ⟨0x35F7624F8A762FD9, 0xF316271C7FC3908B, 216⟩,
  ⟨0x362D3AE36D13BBCF, 0xC2781F49FFCFA6D6, 213⟩,
  ⟨0x366244CE242C5561, 0x9B934C3B330C8578, 210⟩,
  ⟨0x3696D601AD376ABA, 0xF8EBAD2B84E0D58C, 206⟩,
  ⟨0x36CC8B8218854568, 0xC722F0EF9D80AAD7, 203⟩,
  ⟨0x3701D7314F534B61, 0x9F4F2726179A2246, 200⟩,
  ⟨0x37364CFDA3281E39, 0xFEE50B7025C36A09, 196⟩,
  ⟨0x376BE03D0BF225C7, 0xCBEA6F8CEB02BB3A, 193⟩,
  ⟨0x37A16C262777579D, 0xA321F2D7226895C8, 190⟩,
  ⟨0x37D5C72FB1552D84, 0x82818F1281ED44A0, 187⟩,
  ⟨0x380B38FB9DAA78E5, 0xD0CF4B50CFE20766, 183⟩,
  ⟨0x3841039D428A8B8F, 0xA70C3C40A64E6C52, 180⟩,
  ⟨0x38754484932D2E73, 0x85A36366EB71F042, 177⟩,
  ⟨0x38AA95A5B7F87A0F, 0xD5D238A4ABE98069, 173⟩,
  ⟨0x38E09D8792FB4C4A, 0xAB0E93B6EFEE0054, 170⟩,
  ⟨0x3914C4E977BA1F5C, 0x88D8762BF324CD10, 167⟩,
  ⟨0x3949F623D5A8A733, 0xDAF3F04651D47B4D, 163⟩,
  ⟨0x398039D665896880, 0xAF298D050E4395D7, 160⟩,
  ⟨0x39B4484BFEEBC2A0, 0x8C213D9DA502DE46, 157⟩,
  ⟨0x39E95A5EFEA6B348, 0xE0352F62A19E306F, 153⟩,
  ⟨0x3A1FB0F6BE50601A, 0xB35DBF821AE4F38C, 150⟩,
  ⟨0x3A53CE9A36F23C10, 0x8F7E32CE7BEA5C70, 147⟩,
  ⟨0x3A88C240C4AECB14, 0xE596B7B0C643C71A, 143⟩,
  ⟨0x3ABEF2D0F5DA7DD9, 0xB7ABC627050305AE, 140⟩,
  ⟨0x3AF357C299A88EA8, 0x92EFD1B8D0CF37BF, 137⟩,
  ⟨0x3B282DB34012B252, 0xEB194F8E1AE525FE, 133⟩,
  ⟨0x3B5E392010175EE6, 0xBC143FA4E250EB32, 130⟩,
  ⟨0x3B92E3B40A0E9B50, 0x96769950B50D88F5, 127⟩,
  ⟨0x3BC79CA10C924224, 0xF0BDC21ABB48DB21, 123⟩,
  ⟨0x3BFD83C94FB6D2AD, 0xC097CE7BC90715B4, 120⟩,
  ⟨0x3C32725DD1D243AC, 0x9A130B963A6C115D, 117⟩,
  ⟨0x3C670EF54646D497, 0xF684DF56C3E01BC7, 113⟩,
  ⟨0x3C9CD2B297D889BD, 0xC5371912364CE306, 110⟩,
  ⟨0x3CD203AF9EE75616, 0x9DC5ADA82B70B59E, 107⟩,
  ⟨0x3D06849B86A12B9C, 0xFC6F7C4045812297, 103⟩,
  ⟨0x3D3C25C268497682, 0xC9F2C9CD04674EDF, 100⟩,
  ⟨0x3D719799812DEA12, 0xA18F07D736B90BE6, 97⟩,
  ⟨0x3DA5FD7FE1796496, 0x813F3978F8940985, 94⟩,
  ⟨0x3DDB7CDFD9D7BDBB, 0xCECB8F27F4200F3B, 90⟩,
  ⟨0x3E112E0BE826D695, 0xA56FA5B99019A5C8, 87⟩,
  ⟨0x3E45798EE2308C3A, 0x84595161401484A0, 84⟩,
  ⟨0x3E7AD7F29ABCAF49, 0xD3C21BCECCEDA100, 80⟩,
  ⟨0x3EB0C6F7A0B5ED8E, 0xA968163F0A57B400, 77⟩,
  ⟨0x3EE4F8B588E368F1, 0x878678326EAC9000, 74⟩,
  ⟨0x3F1A36E2EB1C432D, 0xD8D726B7177A8000, 70⟩,
  ⟨0x3F50624DD2F1A9FC, 0xAD78EBC5AC620000, 67⟩,
  ⟨0x3F847AE147AE147B, 0x8AC7230489E80000, 64⟩,
  ⟨0x3FB999999999999A, 0xDE0B6B3A76400000, 60⟩,
  ⟨0x3FF0000000000000, 0xB1A2BC2EC5000000, 57⟩,
  ⟨0x4024000000000000, 0x8E1BC9BF04000000, 54⟩,
  ⟨0x4059000000000000, 0xE35FA931A0000000, 50⟩,
  ⟨0x408F400000000000, 0xB5E620F480000000, 47⟩,
  ⟨0x40C3880000000000, 0x9184E72A00000000, 44⟩,
  ⟨0x40F86A0000000000, 0xE8D4A51000000000, 40⟩,
  ⟨0x412E848000000000, 0xBA43B74000000000, 37⟩,
  ⟨0x416312D000000000, 0x9502F90000000000, 34⟩,
  ⟨0x4197D78400000000, 0xEE6B280000000000, 30⟩,
  ⟨0x41CDCD6500000000, 0xBEBC200000000000, 27⟩,
  ⟨0x4202A05F20000000, 0x9896800000000000, 24⟩,
  ⟨0x42374876E8000000, 0xF424000000000000, 20⟩,
  ⟨0x426D1A94A2000000, 0xC350000000000000, 17⟩,
  ⟨0x42A2309CE5400000, 0x9C40000000000000, 14⟩,
  ⟨0x42D6BCC41E900000, 0xFA00000000000000, 10⟩,
  ⟨0x430C6BF526340000, 0xC800000000000000, 7⟩,
  ⟨0x4341C37937E08000, 0xA000000000000000, 4⟩,
  ⟨0x4376345785D8A000, 0x8000000000000000, 1⟩,
  ⟨0x43ABC16D674EC800, 0xCCCCCCCCCCCCCCCD, -3⟩,
  ⟨0x43E158E460913D00, 0xA3D70A3D70A3D70B, -6⟩,
  ⟨0x4415AF1D78B58C40, 0x83126E978D4FDF3C, -9⟩,
  ⟨0x444B1AE4D6E2EF50, 0xD1B71758E219652C, -13⟩,
  ⟨0x4480F0CF064DD592, 0xA7C5AC471B478424, -16⟩,
  ⟨0x44B52D02C7E14AF7, 0x8637BD05AF6C69B6, -19⟩,
  ⟨0x44EA784379D99DB5, 0xD6BF94D5E57A42BD, -23⟩,
  ⟨0x45208B2A2C280291, 0xABCC77118461CEFD, -26⟩,
  ⟨0x4554ADF4B7320335, 0x89705F4136B4A598, -29⟩,
  ⟨0x4589D971E4FE8402, 0xDBE6FECEBDEDD5BF, -33⟩,
  ⟨0x45C027E72F1F1282, 0xAFEBFF0BCB24AAFF, -36⟩,
  ⟨0x45F431E0FAE6D722, 0x8CBCCC096F5088CC, -39⟩,
  ⟨0x46293E5939A08CEA, 0xE12E13424BB40E14, -43⟩,
  ⟨0x465F8DEF8808B025, 0xB424DC35095CD810, -46⟩,
  ⟨0x4693B8B5B5056E17, 0x901D7CF73AB0ACDA, -49⟩,
  ⟨0x46C8A6E32246C99D, 0xE69594BEC44DE15C, -53⟩,
  ⟨0x46FED09BEAD87C04, 0xB877AA3236A4B44A, -56⟩,
  ⟨0x4733426172C74D83, 0x9392EE8E921D5D08, -59⟩,
  ⟨0x476812F9CF7920E3, 0xEC1E4A7DB69561A6, -63⟩,
  ⟨0x479E17B84357691C, 0xBCE5086492111AEB, -66⟩,
  ⟨0x47D2CED32A16A1B2, 0x971DA05074DA7BEF, -69⟩,
  ⟨0x48078287F49C4A1E, 0xF1C90080BAF72CB2, -73⟩,
  ⟨0x483D6329F1C35CA5, 0xC16D9A0095928A28, -76⟩,
  ⟨0x48725DFA371A19E7, 0x9ABE14CD44753B53, -79⟩,
  ⟨0x48A6F578C4E0A061, 0xF79687AED3EEC552, -83⟩,
  ⟨0x48DCB2D6F618C879, 0xC612062576589DDB, -86⟩,
  ⟨0x4911EFC659CF7D4C, 0x9E74D1B791E07E49, -89⟩,
  ⟨0x49466BB7F0435C9F, 0xFD87B5F28300CA0E, -93⟩,
  ⟨0x497C06A5EC5433C7, 0xCAD2F7F5359A3B3F, -96⟩,
  ⟨0x49B18427B3B4A05C, 0xA2425FF75E14FC32, -99⟩,
  ⟨0x49E5E531A0A1C873, 0x81CEB32C4B43FCF5, -102⟩,
  ⟨0x4A1B5E7E08CA3A90, 0xCFB11EAD453994BB, -106⟩,
  ⟨0x4A511B0EC57E649A, 0xA6274BBDD0FADD62, -109⟩,
  ⟨0x4A8561D276DDFDC1, 0x84EC3C97DA624AB5, -112⟩,
  ⟨0x4ABABA4714957D31, 0xD4AD2DBFC3D07788, -116⟩,
  ⟨0x4AF0B46C6CDD6E3F, 0xAA242499697392D3, -119⟩,
  ⟨0x4B24E1878814C9CE, 0x881CEA14545C7576, -122⟩,
  ⟨0x4B5A19E96A19FC41, 0xD9C7DCED53C72256, -126⟩,
  ⟨0x4B905031E2503DA9, 0xAE397D8AA96C1B78, -129⟩,
  ⟨0x4BC4643E5AE44D13, 0x8B61313BBABCE2C7, -132⟩,
  ⟨0x4BF97D4DF19D6058, 0xDF01E85F912E37A4, -136⟩,
  ⟨0x4C2FDCA16E04B86E, 0xB267ED1940F1C61D, -139⟩,
  ⟨0x4C63E9E4E4C2F345, 0x8EB98A7A9A5B04E4, -142⟩,
  ⟨0x4C98E45E1DF3B016, 0xE45C10C42A2B3B06, -146⟩,
  ⟨0x4CCF1D75A5709C1B, 0xB6B00D69BB55C8D2, -149⟩,
  ⟨0x4D03726987666191, 0x9226712162AB070E, -152⟩,
  ⟨0x4D384F03E93FF9F5, 0xE9D71B689DDE71B0, -156⟩,
  ⟨0x4D6E62C4E38FF873, 0xBB127C53B17EC15A, -159⟩,
  ⟨0x4DA2FDBB0E39FB48, 0x95A8637627989AAE, -162⟩,
  ⟨0x4DD7BD29D1C87A1A, 0xEF73D256A5C0F77D, -166⟩,
  ⟨0x4E0DAC74463A98A0, 0xBF8FDB78849A5F97, -169⟩,
  ⟨0x4E428BC8ABE49F64, 0x993FE2C6D07B7FAC, -172⟩,
  ⟨0x4E772EBAD6DDC73D, 0xF53304714D9265E0, -176⟩,
  ⟨0x4EACFA698C95390C, 0xC428D05AA4751E4D, -179⟩,
  ⟨0x4EE21C81F7DD43A8, 0x9CED737BB6C4183E, -182⟩,
  ⟨0x4F16A3A275D49492, 0xFB158592BE068D2F, -186⟩,
  ⟨0x4F4C4C8B1349B9B6, 0xC8DE047564D20A8C, -189⟩,
  ⟨0x4F81AFD6EC0E1412, 0xA0B19D2AB70E6ED7, -192⟩,
  ⟨0x4FB61BCCA7119916, 0x808E17555F3EBF12, -195⟩,
  ⟨0x4FEBA2BFD0D5FF5C, 0xCDB02555653131B7, -199⟩,
  ⟨0x502145B7E285BF99, 0xA48CEAAAB75A8E2C, -202⟩,
  ⟨0x50559725DB272F80, 0x83A3EEEEF9153E8A, -205⟩,
  ⟨0x508AFCEF51F0FB5F, 0xD29FE4B18E88640F, -209⟩,
  ⟨0x50C0DE1593369D1C, 0xA87FEA27A539E9A6, -212⟩,
  ⟨0x50F5159AF8044463, 0x86CCBB52EA94BAEB, -215⟩,
  ⟨0x512A5B01B605557B, 0xD7ADF884AA879178, -219⟩,
  ⟨0x516078E111C3556D, 0xAC8B2D36EED2DAC6, -222⟩,
  ⟨0x5194971956342AC8, 0x8A08F0F8BF0F156C, -225⟩,
  ⟨0x51C9BCDFABC1357A, 0xDCDB1B2798182245, -229⟩,
  ⟨0x5200160BCB58C16D, 0xB0AF48EC79ACE838, -232⟩,
  ⟨0x52341B8EBE2EF1C8, 0x8D590723948A5360, -235⟩,
  ⟨0x526922726DBAAE3A, 0xE2280B6C20DD5233, -239⟩,
  ⟨0x529F6B0F092959C8, 0xB4ECD5F01A4AA829, -242⟩,
  ⟨0x52D3A2E965B9D81D, 0x90BD77F3483BB9BA, -245⟩,
  ⟨0x53088BA3BF284E24, 0xE7958CB87392C2C3, -249⟩,
  ⟨0x533EAE8CAEF261AD, 0xB94470938FA89BCF, -252⟩,
  ⟨0x53732D17ED577D0C, 0x9436C0760C86E30C, -255⟩,
  ⟨0x53A7F85DE8AD5C4F, 0xED246723473E3814, -259⟩,
  ⟨0x53DDF67562D8B363, 0xBDB6B8E905CB6010, -262⟩,
  ⟨0x5412BA095DC7701E, 0x97C560BA6B0919A6, -265⟩,
  ⟨0x5447688BB5394C26, 0xF2D56790AB41C2A3, -269⟩,
  ⟨0x547D42AEA2879F2F, 0xC24452DA229B021C, -272⟩,
  ⟨0x54B249AD2594C37D, 0x9B69DBE1B548CE7D, -275⟩,
  ⟨0x54E6DC186EF9F45D, 0xF8A95FCF88747D95, -279⟩,
  ⟨0x551C931E8AB87174, 0xC6EDE63FA05D3144, -282⟩,
  ⟨0x5551DBF316B346E8, 0x9F24B832E6B0F437, -285⟩,
  ⟨0x558652EFDC6018A2, 0xFEA126B7D78186BD, -289⟩,
  ⟨0x55BBE7ABD3781ECB, 0xCBB41EF979346BCB, -292⟩,
  ⟨0x55F170CB642B133F, 0xA2F67F2DFA90563C, -295⟩,
  ⟨0x5625CCFE3D35D80F, 0x825ECC24C8737830, -298⟩,
  ⟨0x565B403DCC834E12, 0xD097AD07A71F26B3, -302⟩,
  ⟨0x569108269FD210CC, 0xA6DFBD9FB8E5B88F, -305⟩,
  ⟨0x56C54A3047C694FE, 0x857FCAE62D8493A6, -308⟩,
  ⟨0x56FA9CBC59B83A3E, 0xD59944A37C0752A3, -312⟩,
  ⟨0x5730A1F5B8132467, 0xAAE103B5FCD2A882, -315⟩,
  ⟨0x5764CA732617ED80, 0x88B402F7FD75539C, -318⟩,
  ⟨0x5799FD0FEF9DE8E0, 0xDAB99E59958885C5, -322⟩,
  ⟨0x57D03E29F5C2B18C, 0xAEFAE51477A06B04, -325⟩,
  ⟨0x58044DB473335DEF, 0x8BFBEA76C619EF37, -328⟩,
  ⟨0x583961219000356B, 0xDFF9772470297EBE, -332⟩,
  ⟨0x586FB969F40042C6, 0xB32DF8E9F3546565, -335⟩,
  ⟨0x58A3D3E2388029BC, 0x8F57FA54C2A9EAB7, -338⟩,
  ⟨0x58D8C8DAC6A0342B, 0xE55990879DDCAABE, -342⟩,
  ⟨0x590EFB1178484135, 0xB77ADA0617E3BBCC, -345⟩,
  ⟨0x59435CEAEB2D28C1, 0x92C8AE6B464FC970, -348⟩,
  ⟨0x59783425A5F872F2, 0xEADAB0ABA3B2DBE6, -352⟩,
  ⟨0x59AE412F0F768FAE, 0xBBE226EFB628AFEB, -355⟩,
  ⟨0x59E2E8BD69AA19CD, 0x964E858C91BA2656, -358⟩,
  ⟨0x5A17A2ECC414A040, 0xF07DA27A82C37089, -362⟩,
  ⟨0x5A4D8BA7F519C850, 0xC06481FB9BCF8D3A, -365⟩,
  ⟨0x5A827748F9301D32, 0x99EA0196163FA42F, -368⟩,
  ⟨0x5AB7151B377C247F, 0xF64335BCF065D37E, -372⟩,
  ⟨0x5AECDA62055B2D9E, 0xC5029163F384A932, -375⟩,
  ⟨0x5B22087D4358FC83, 0x9D9BA7832936EDC1, -378⟩,
  ⟨0x5B568A9C942F3BA4, 0xFC2C3F3841F17C68, -382⟩,
  ⟨0x5B8C2D43B93B0A8C, 0xC9BCFF6034C13053, -385⟩,
  ⟨0x5BC19C4A53C4E698, 0xA163FF802A3426A9, -388⟩,
  ⟨0x5BF6035CE8B6203E, 0x811CCC668829B888, -391⟩,
  ⟨0x5C2B843422E3A84D, 0xCE947A3DA6A9273F, -395⟩,
  ⟨0x5C6132A095CE4930, 0xA54394FE1EEDB8FF, -398⟩,
  ⟨0x5C957F48BB41DB7C, 0x843610CB4BF160CC, -401⟩,
  ⟨0x5CCADF1AEA12525B, 0xD389B4787982347A, -405⟩,
  ⟨0x5D00CB70D24B7379, 0xA93AF6C6C79B5D2E, -408⟩,
  ⟨0x5D34FE4D06DE5057, 0x87625F056C7C4A8C, -411⟩,
  ⟨0x5D6A3DE04895E46D, 0xD89D64D57A607745, -415⟩,
  ⟨0x5DA066AC2D5DAEC4, 0xAD4AB7112EB3929E, -418⟩,
  ⟨0x5DD4805738B51A75, 0x8AA22C0DBEF60EE5, -421⟩,
  ⟨0x5E09A06D06E26113, 0xDDD0467C64BCE4A1, -425⟩,
  ⟨0x5E400444244D7CAC, 0xB1736B96B6FD83B4, -428⟩,
  ⟨0x5E7405552D60DBD7, 0x8DF5EFABC5979C90, -431⟩,
  ⟨0x5EA906AA78B912CC, 0xE3231912D5BF60E7, -435⟩,
  ⟨0x5EDF485516E7577F, 0xB5B5ADA8AAFF80B9, -438⟩,
  ⟨0x5F138D352E5096B0, 0x915E2486EF32CD61, -441⟩,
  ⟨0x5F48708279E4BC5B, 0xE896A0D7E51E1567, -445⟩,
  ⟨0x5F7E8CA3185DEB72, 0xBA121A4650E4DDEC, -448⟩,
  ⟨0x5FB317E5EF3AB328, 0x94DB483840B717F0, -451⟩,
  ⟨0x5FE7DDDF6B095FF1, 0xEE2BA6C0678B5980, -455⟩,
  ⟨0x601DD55745CBB7ED, 0xBE89523386091466, -458⟩,
  ⟨0x6052A5568B9F52F5, 0x986DDB5C6B3A76B8, -461⟩,
  ⟨0x60874EAC2E8727B2, 0xF3E2F893DEC3F127, -465⟩,
  ⟨0x60BD22573A28F19E, 0xC31BFA0FE5698DB9, -468⟩,
  ⟨0x60F2357684599703, 0x9C1661A651213E2E, -471⟩,
  ⟨0x6126C2D4256FFCC3, 0xF9BD690A1B68637C, -475⟩,
  ⟨0x615C73892ECBFBF4, 0xC7CABA6E7C5382C9, -478⟩,
  ⟨0x6191C835BD3F7D79, 0x9FD561F1FD0F9BD4, -481⟩,
  ⟨0x61C63A432C8F5CD7, 0xFFBBCFE994E5C620, -485⟩,
  ⟨0x61FBC8D3F7B3340C, 0xCC963FEE10B7D1B4, -488⟩,
  ⟨0x62315D847AD00088, 0xA3AB66580D5FDAF6, -491⟩,
  ⟨0x6265B4E5998400AA, 0x82EF85133DE648C5, -494⟩,
  ⟨0x629B221EFFE500D4, 0xD17F3B51FCA3A7A1, -498⟩,
  ⟨0x62D0F5535FEF2085, 0xA798FC4196E952E8, -501⟩,
  ⟨0x630532A837EAE8A6, 0x8613FD0145877586, -504⟩,
  ⟨0x633A7F5245E5A2CF, 0xD686619BA27255A3, -508⟩,
  ⟨0x63708F936BAF85C2, 0xAB9EB47C81F51150, -511⟩,
  ⟨0x63A4B378469B6732, 0x894BC396CE5DA773, -514⟩,
  ⟨0x63D9E056584240FE, 0xDBAC6C247D62A584, -518⟩,
  ⟨0x64102C35F729689F, 0xAFBD2350644EEAD0, -521⟩,
  ⟨0x6444374374F3C2C7, 0x8C974F7383725574, -524⟩,
  ⟨0x647945145230B378, 0xE0F218B8D25088B9, -528⟩,
  ⟨0x64AF965966BCE056, 0xB3F4E093DB73A094, -531⟩,
  ⟨0x64E3BDF7E0360C36, 0x8FF71A0FE2C2E6DD, -534⟩,
  ⟨0x6518AD75D8438F44, 0xE65829B3046B0AFB, -538⟩,
  ⟨0x654ED8D34E547314, 0xB84687C269EF3BFC, -541⟩,
  ⟨0x6583478410F4C7ED, 0x936B9FCEBB25C996, -544⟩,
  ⟨0x65B819651531F9E8, 0xEBDF661791D60F57, -548⟩,
  ⟨0x65EE1FBE5A7E7862, 0xBCB2B812DB11A5DF, -551⟩,
  ⟨0x6622D3D6F88F0B3D, 0x96F5600F15A7B7E6, -554⟩,
  ⟨0x665788CCB6B2CE0D, 0xF18899B1BC3F8CA2, -558⟩,
  ⟨0x668D6AFFE45F8190, 0xC13A148E3032D6E8, -561⟩,
  ⟨0x66C262DFEEBBB0FA, 0x9A94DD3E8CF578BA, -564⟩,
  ⟨0x66F6FB97EA6A9D38, 0xF7549530E188C129, -568⟩,
  ⟨0x672CBA7DE5054486, 0xC5DD44271AD3CDBB, -571⟩,
  ⟨0x6761F48EAF234AD4, 0x9E4A9CEC15763E2F, -574⟩,
  ⟨0x679671B25AEC1D89, 0xFD442E4688BD304B, -578⟩,
  ⟨0x67CC0E1EF1A724EB, 0xCA9CF1D206FDC03C, -581⟩,
  ⟨0x680188D357087713, 0xA21727DB38CB0030, -584⟩,
  ⟨0x6835EB082CCA94D8, 0x81AC1FE293D599C0, -587⟩,
  ⟨0x686B65CA37FD3A0E, 0xCF79CC9DB955C2CD, -591⟩,
  ⟨0x68A11F9E62FE4449, 0xA5FB0A17C777CF0A, -594⟩,
  ⟨0x68D56785FBBDD55B, 0x84C8D4DFD2C63F3C, -597⟩,
  ⟨0x690AC1677AAD4AB1, 0xD47487CC8470652C, -601⟩,
  ⟨0x6940B8E0ACAC4EAF, 0xA9F6D30A038D1DBD, -604⟩,
  ⟨0x6974E718D7D7625B, 0x87F8A8D4CFA417CA, -607⟩,
  ⟨0x69AA20DF0DCD3AF1, 0xD98DDAEE19068C77, -611⟩,
  ⟨0x69E0548B68A044D7, 0xAE0B158B4738705F, -614⟩,
  ⟨0x6A1469AE42C8560D, 0x8B3C113C38F9F37F, -617⟩,
  ⟨0x6A498419D37A6B90, 0xDEC681F9F4C31F32, -621⟩,
  ⟨0x6A7FE52048590673, 0xB23867FB2A35B28E, -624⟩,
  ⟨0x6AB3EF342D37A408, 0x8E938662882AF53F, -627⟩,
  ⟨0x6AE8EB0138858D0A, 0xE41F3D6A7377EECB, -631⟩,
  ⟨0x6B1F25C186A6F04D, 0xB67F6455292CBF09, -634⟩,
  ⟨0x6B537798F4285630, 0x91FF83775423CC07, -637⟩,
  ⟨0x6B88557F31326BBC, 0xE998D258869FACD8, -641⟩,
  ⟨0x6BBE6ADEFD7F06AB, 0xBAE0A846D2195713, -644⟩,
  ⟨0x6BF302CB5E6F642B, 0x9580869F0E7AAC0F, -647⟩,
  ⟨0x6C27C37E360B3D36, 0xEF340A98172AACE5, -651⟩,
  ⟨0x6C5DB45DC38E0C83, 0xBF5CD54678EEF0B7, -654⟩,
  ⟨0x6C9290BA9A38C7D2, 0x991711052D8BF3C6, -657⟩,
  ⟨0x6CC734E940C6F9C6, 0xF4F1B4D515ACB93C, -661⟩,
  ⟨0x6CFD022390F8B838, 0xC3F490AA77BD60FD, -664⟩,
  ⟨0x6D3221563A9B7323, 0x9CC3A6EEC6311A64, -667⟩,
  ⟨0x6D66A9ABC9424FEC, 0xFAD2A4B13D1B5D6D, -671⟩,
  ⟨0x6D9C5416BB92E3E7, 0xC8A883C0FDAF7DF1, -674⟩,
  ⟨0x6DD1B48E353BCE70, 0xA086CFCD97BF97F4, -677⟩,
  ⟨0x6E0621B1C28AC20C, 0x806BD9714632DFF7, -680⟩,
  ⟨0x6E3BAA1E332D728F, 0xCD795BE870516657, -684⟩,
  ⟨0x6E714A52DFFC679A, 0xA46116538D0DEB79, -687⟩,
  ⟨0x6EA59CE797FB8180, 0x8380DEA93DA4BC61, -690⟩,
  ⟨0x6EDB04217DFA61E0, 0xD267CAA862A12D67, -694⟩,
  ⟨0x6F10E294EEBC7D2C, 0xA8530886B54DBDEC, -697⟩,
  ⟨0x6F451B3A2A6B9C77, 0x86A8D39EF77164BD, -700⟩,
  ⟨0x6F7A6208B5068395, 0xD77485CB25823AC8, -704⟩,
  ⟨0x6FB07D457124123D, 0xAC5D37D5B79B623A, -707⟩,
  ⟨0x6FE49C96CD6D16CC, 0x89E42CAAF9491B61, -710⟩,
  ⟨0x7019C3BC80C85C7F, 0xDCA04777F541C568, -714⟩,
  ⟨0x70501A55D07D39D0, 0xB080392CC4349DED, -717⟩,
  ⟨0x708420EB449C8843, 0x8D3360F09CF6E4BE, -720⟩,
  ⟨0x70B9292615C3AA54, 0xE1EBCE4DC7F16DFC, -724⟩,
  ⟨0x70EF736F9B3494E9, 0xB4BCA50B065ABE64, -727⟩,
  ⟨0x7123A825C100DD12, 0x9096EA6F38489850, -730⟩,
  ⟨0x7158922F31411456, 0xE757DD7EC07426E6, -734⟩,
  ⟨0x718EB6BAFD91596C, 0xB913179899F68585, -737⟩,
  ⟨0x71C33234DE7AD7E3, 0x940F4613AE5ED137, -740⟩,
  ⟨0x71F7FEC216198DDC, 0xECE53CEC4A314EBE, -744⟩,
  ⟨0x722DFE729B9FF153, 0xBD8430BD08277232, -747⟩,
  ⟨0x7262BF07A143F6D4, 0x979CF3CA6CEC5B5B, -750⟩,
  ⟨0x72976EC98994F489, 0xF294B943E17A2BC5, -754⟩,
  ⟨0x72CD4A7BEBFA31AB, 0xC21094364DFB5637, -757⟩,
  ⟨0x73024E8D737C5F0B, 0x9B407691D7FC44F9, -760⟩,
  ⟨0x7336E230D05B76CE, 0xF867241C8CC6D4C1, -764⟩,
  ⟨0x736C9ABD04725481, 0xC6B8E9B0709F109B, -767⟩,
  ⟨0x73A1E0B622C774D1, 0x9EFA548D26E5A6E2, -770⟩,
  ⟨0x73D658E3AB795205, 0xFE5D54150B090B03, -774⟩,
  ⟨0x740BEF1C9657A686, 0xCB7DDCDDA26DA269, -777⟩,
  ⟨0x74417571DDF6C814, 0xA2CB1717B52481EE, -780⟩,
  ⟨0x7475D2CE55747A19, 0x823C12795DB6CE58, -783⟩,
  ⟨0x74AB4781EAD1989F, 0xD0601D8EFC57B08C, -787⟩,
  ⟨0x74E10CB132C2FF64, 0xA6B34AD8C9DFC070, -790⟩,
  ⟨0x75154FDD7F73BF3C, 0x855C3BE0A17FCD27, -793⟩,
  ⟨0x754AA3D4DF50AF0B, 0xD5605FCDCF32E1D7, -797⟩,
  ⟨0x7580A6650B926D67, 0xAAB37FD7D8F58179, -800⟩,
  ⟨0x75B4CFFE4E7708C1, 0x888F99797A5E012E, -803⟩,
  ⟨0x75EA03FDE214CAF1, 0xDA7F5BF590966849, -807⟩,
  ⟨0x7620427EAD4CFED7, 0xAECC49914078536E, -810⟩,
  ⟨0x7654531E58A03E8C, 0x8BD6A141006042BE, -813⟩,
  ⟨0x768967E5EEC84E2F, 0xDFBDCECE67006ACA, -817⟩,
  ⟨0x76BFC1DF6A7A61BB, 0xB2FE3F0B8599EF08, -820⟩,
  ⟨0x76F3D92BA28C7D15, 0x8F31CC0937AE58D3, -823⟩,
  ⟨0x7728CF768B2F9C5A, 0xE51C79A85916F485, -827⟩,
  ⟨0x775F03542DFB8371, 0xB749FAED14125D37, -830⟩,
  ⟨0x779362149CBD3227, 0x92A1958A76751760, -833⟩,
  ⟨0x77C83A99C3EC7EB0, 0xEA9C227723EE8BCC, -837⟩,
  ⟨0x77FE494034E79E5C, 0xBBB01B9283253CA3, -840⟩,
  ⟨0x7832EDC82110C2FA, 0x96267C7535B763B6, -843⟩,
  ⟨0x7867A93A2954F3B8, 0xF03D93EEBC589F89, -847⟩,
  ⟨0x789D9388B3AA30A6, 0xC0314325637A193A, -850⟩,
  ⟨0x78D27C35704A5E68, 0x99C102844F94E0FC, -853⟩,
  ⟨0x79071B42CC5CF602, 0xF6019DA07F549B2C, -857⟩,
  ⟨0x793CE2137F743382, 0xC4CE17B399107C23, -860⟩,
  ⟨0x79720D4C2FA8A031, 0x9D71AC8FADA6C9B6, -863⟩,
  ⟨0x79A6909F3B92C83E, 0xFBE9141915D7A923, -867⟩,
  ⟨0x79DC34C70A777A4D, 0xC987434744AC874F, -870⟩,
  ⟨0x7A11A0FC668AAC70, 0xA139029F6A239F73, -873⟩,
  ⟨0x7A46093B802D578C, 0x80FA687F881C7F8F, -876⟩,
  ⟨0x7A7B8B8A6038AD6F, 0xCE5D73FF402D98E4, -880⟩,
  ⟨0x7AB137367C236C66, 0xA5178FFF668AE0B7, -883⟩,
  ⟨0x7AE585041B2C477F, 0x8412D9991ED58092, -886⟩,
  ⟨0x7B1AE64521F7595F, 0xD3515C2831559A84, -890⟩,
  ⟨0x7B50CFEB353A97DB, 0xA90DE3535AAAE203, -893⟩,
  ⟨0x7B8503E602893DD2, 0x873E4F75E2224E69, -896⟩,
  ⟨0x7BBA44DF832B8D46, 0xD863B256369D4A41, -900⟩,
  ⟨0x7BF06B0BB1FB384C, 0xAD1C8EAB5EE43B67, -903⟩,
  ⟨0x7C2485CE9E7A065F, 0x8A7D3EEF7F1CFC53, -906⟩,
  ⟨0x7C59A742461887F7, 0xDD95317F31C7FA1E, -910⟩,
  ⟨0x7C9008896BCF54FA, 0xB1442798F49FFB4B, -913⟩,
  ⟨0x7CC40AABC6C32A39, 0x8DD01FAD907FFC3C, -916⟩,
  ⟨0x7CF90D56B873F4C7, 0xE2E69915B3FFF9FA, -920⟩,
  ⟨0x7D2F50AC6690F1F9, 0xB58547448FFFFB2E, -923⟩,
  ⟨0x7D63926BC01A973C, 0x91376C36D99995BF, -926⟩,
  ⟨0x7D987706B0213D0A, 0xE858AD248F5C22CA, -930⟩,
  ⟨0x7DCE94C85C298C4D, 0xB9E08A83A5E34F08, -933⟩,
  ⟨0x7E031CFD3999F7B0, 0x94B3A202EB1C3F3A, -936⟩,
  ⟨0x7E37E43C8800759C, 0xEDEC366B11C6CB90, -940⟩,
  ⟨0x7E6DDD4BAA009303, 0xBE5691EF416BD60D, -943⟩,
  ⟨0x7EA2AA4F4A405BE2, 0x9845418C345644D7, -946⟩,
  ⟨0x7ED754E31CD072DA, 0xF3A20279ED56D48B, -950⟩,
  ⟨0x7F0D2A1BE4048F91, 0xC2E801FB244576D6, -953⟩,
  ⟨0x7F423A516E82D9BB, 0x9BECCE62836AC578, -956⟩,
  ⟨0x7F76C8E5CA239029, 0xF97AE3D0D2446F26, -960⟩,
  ⟨0x7FAC7B1F3CAC7434, 0xC795830D75038C1E, -963⟩,
  ⟨0x7FE1CCF385EBC8A0, 0x9FAACF3DF73609B2, -966⟩
]

/-- `decimal_multiplier`, ascii_numget.cpp:240-244: a power of ten, as a mantissa of 64 bits and a base-2 exponent. -/
structure GetEntry where
  mant : Nat
  exp2 : Int

/-- `s_decimal_multipliers`, ascii_numget.cpp:247-898, for 10^-343 up to 10^308. -/
def getTable : List GetEntry := [
  ⟨0xBF29DCABA82FDEAF, -1139⟩,
  ⟨0xEEF453D6923BD65B, -1136⟩,
  ⟨0x9558B4661B6565F9, -1132⟩,
  ⟨0xBAAEE17FA23EBF77, -1129⟩,
  ⟨0xE95A99DF8ACE6F54, -1126⟩,
  ⟨0x91D8A02BB6C10595, -1122⟩,
  ⟨0xB64EC836A47146FA, -1119⟩,
  ⟨0xE3E27A444D8D98B8, -1116⟩,
  ⟨0x8E6D8C6AB0787F73, -1112⟩,
  ⟨0xB208EF855C969F50, -1109⟩,
  ⟨0xDE8B2B66B3BC4724, -1106⟩,
  ⟨0x8B16FB203055AC77, -1102⟩,
  ⟨0xADDCB9E83C6B1794, -1099⟩,
  ⟨0xD953E8624B85DD79, -1096⟩,
  ⟨0x87D4713D6F33AA6C, -1092⟩,
  ⟨0xA9C98D8CCB009507, -1089⟩,
  ⟨0xD43BF0EFFDC0BA49, -1086⟩,
  ⟨0x84A57695FE98746E, -1082⟩,
  ⟨0xA5CED43B7E3E9189, -1079⟩,
  ⟨0xCF42894A5DCE35EB, -1076⟩,
  ⟨0x818995CE7AA0E1B3, -1072⟩,
  ⟨0xA1EBFB4219491A20, -1069⟩,
  ⟨0xCA66FA129F9B60A7, -1066⟩,
  ⟨0xFD00B897478238D1, -1063⟩,
  ⟨0x9E20735E8CB16383, -1059⟩,
  ⟨0xC5A890362FDDBC63, -1056⟩,
  ⟨0xF712B443BBD52B7C, -1053⟩,
  ⟨0x9A6BB0AA55653B2E, -1049⟩,
  ⟨0xC1069CD4EABE89F9, -1046⟩,
  ⟨0xF148440A256E2C77, -1043⟩,
  ⟨0x96CD2A865764DBCB, -1039⟩,
  ⟨0xBC807527ED3E12BD, -1036⟩,
  ⟨0xEBA09271E88D976C, -1033⟩,
  ⟨0x93445B8731587EA4, -1029⟩,
  ⟨0xB8157268FDAE9E4D, -1026⟩,
  ⟨0xE61ACF033D1A45E0, -1023⟩,
  ⟨0x8FD0C16206306BAC, -1019⟩,
  ⟨0xB3C4F1BA87BC8697, -1016⟩,
  ⟨0xE0B62E2929ABA83D, -1013⟩,
  ⟨0x8C71DCD9BA0B4926, -1009⟩,
  ⟨0xAF8E5410288E1B70, -1006⟩,
  ⟨0xDB71E91432B1A24B, -1003⟩,
  ⟨0x892731AC9FAF056F, -999⟩,
  ⟨0xAB70FE17C79AC6CB, -996⟩,
  ⟨0xD64D3D9DB981787E, -993⟩,
  ⟨0x85F0468293F0EB4F, -989⟩,
  ⟨0xA76C582338ED2622, -986⟩,
  ⟨0xD1476E2C07286FAB, -983⟩,
  ⟨0x82CCA4DB847945CB, -979⟩,
  ⟨0xA37FCE126597973D, -976⟩,
  ⟨0xCC5FC196FEFD7D0D, -973⟩,
  ⟨0xFF77B1FCBEBCDC50, -970⟩,
  ⟨0x9FAACF3DF73609B2, -966⟩,
  ⟨0xC795830D75038C1E, -963⟩,
  ⟨0xF97AE3D0D2446F26, -960⟩,
  ⟨0x9BECCE62836AC578, -956⟩,
  ⟨0xC2E801FB244576D6, -953⟩,
  ⟨0xF3A20279ED56D48B, -950⟩,
  ⟨0x9845418C345644D7, -946⟩,
  ⟨0xBE5691EF416BD60D, -943⟩,
  ⟨0xEDEC366B11C6CB90, -940⟩,
  ⟨0x94B3A202EB1C3F3A, -936⟩,
  ⟨0xB9E08A83A5E34F08, -933⟩,
  ⟨0xE858AD248F5C22CA, -930⟩,
  ⟨0x91376C36D99995BF, -926⟩,
  ⟨0xB58547448FFFFB2E, -923⟩,
  ⟨0xE2E69915B3FFF9FA, -920⟩,
  ⟨0x8DD01FAD907FFC3C, -916⟩,
  ⟨0xB1442798F49FFB4B, -913⟩,
  ⟨0xDD95317F31C7FA1E, -910⟩,
  ⟨0x8A7D3EEF7F1CFC53, -906⟩,
  ⟨0xAD1C8EAB5EE43B67, -903⟩,
  ⟨0xD863B256369D4A41, -900⟩,
  ⟨0x873E4F75E2224E69, -896⟩,
  ⟨0xA90DE3535AAAE203, -893⟩,
  ⟨0xD3515C2831559A84, -890⟩,
  ⟨0x8412D9991ED58092, -886⟩,
  ⟨0xA5178FFF668AE0B7, -883⟩,
  ⟨0xCE5D73FF402D98E4, -880⟩,
  ⟨0x80FA687F881C7F8F, -876⟩,
  ⟨0xA139029F6A239F73, -873⟩,
  ⟨0xC987434744AC874F, -870⟩,
  ⟨0xFBE9141915D7A923, -867⟩,
  ⟨0x9D71AC8FADA6C9B6, -863⟩,
  ⟨0xC4CE17B399107C23, -860⟩,
  ⟨0xF6019DA07F549B2C, -857⟩,
  ⟨0x99C102844F94E0FC, -853⟩,
  ⟨0xC0314325637A193A, -850⟩,
  ⟨0xF03D93EEBC589F89, -847⟩,
  ⟨0x96267C7535B763B6, -843⟩,
  ⟨0xBBB01B9283253CA3, -840⟩,
  ⟨0xEA9C227723EE8BCC, -837⟩,
  ⟨0x92A1958A76751760, -833⟩,
  ⟨0xB749FAED14125D37, -830⟩,
  ⟨0xE51C79A85916F485, -827⟩,
  ⟨0x8F31CC0937AE58D3, -823⟩,
  ⟨0xB2FE3F0B8599EF08, -820⟩,
  ⟨0xDFBDCECE67006ACA, -817⟩,
  ⟨0x8BD6A141006042BE, -813⟩,
  ⟨0xAECC49914078536E, -810⟩,
  ⟨0xDA7F5BF590966849, -807⟩,
  ⟨0x888F99797A5E012E, -803⟩,
  ⟨0xAAB37FD7D8F58179, -800⟩,
  ⟨0xD5605FCDCF32E1D7, -797⟩,
  ⟨0x855C3BE0A17FCD27, -793⟩,
  ⟨0xA6B34AD8C9DFC070, -790⟩,
  ⟨0xD0601D8EFC57B08C, -787⟩,
  ⟨0x823C12795DB6CE58, -783⟩,
  ⟨0xA2CB1717B52481EE, -780⟩,
  ⟨0xCB7DDCDDA26DA269, -777⟩,
  ⟨0xFE5D54150B090B03, -774⟩,
  ⟨0x9EFA548D26E5A6E2, -770⟩,
  ⟨0xC6B8E9B0709F109B, -767⟩,
  ⟨0xF867241C8CC6D4C1, -764⟩,
  ⟨0x9B407691D7FC44F9, -760⟩,
  ⟨0xC21094364DFB5637, -757⟩,
  ⟨0xF294B943E17A2BC5, -754⟩,
  ⟨0x979CF3CA6CEC5B5B, -750⟩,
  ⟨0xBD8430BD08277232, -747⟩,
  ⟨0xECE53CEC4A314EBE, -744⟩,
  ⟨0x940F4613AE5ED137, -740⟩,
  ⟨0xB913179899F68585, -737⟩,
  ⟨0xE757DD7EC07426E6, -734⟩,
  ⟨0x9096EA6F38489850, -730⟩,
  ⟨0xB4BCA50B065ABE64, -727⟩,
  ⟨0xE1EBCE4DC7F16DFC, -724⟩,
  ⟨0x8D3360F09CF6E4BE, -720⟩,
  ⟨0xB080392CC4349DED, -717⟩,
  ⟨0xDCA04777F541C568, -714⟩,
  ⟨0x89E42CAAF9491B61, -710⟩,
  ⟨0xAC5D37D5B79B623A, -707⟩,
  ⟨0xD77485CB25823AC8, -704⟩,
  ⟨0x86A8D39EF77164BD, -700⟩,
  ⟨0xA8530886B54DBDEC, -697⟩,
  ⟨0xD267CAA862A12D67, -694⟩,
  ⟨0x8380DEA93DA4BC61, -690⟩,
  ⟨0xA46116538D0DEB79, -687⟩,
  ⟨0xCD795BE870516657, -684⟩,
  ⟨0x806BD9714632DFF7, -680⟩,
  ⟨0xA086CFCD97BF97F4, -677⟩,
  ⟨0xC8A883C0FDAF7DF1, -674⟩,
  ⟨0xFAD2A4B13D1B5D6D, -671⟩,
  ⟨0x9CC3A6EEC6311A64, -667⟩,
  ⟨0xC3F490AA77BD60FD, -664⟩,
  ⟨0xF4F1B4D515ACB93C, -661⟩,
  ⟨0x991711052D8BF3C6, -657⟩,
  ⟨0xBF5CD54678EEF0B7, -654⟩,
  ⟨0xEF340A98172AACE5, -651⟩,
  ⟨0x9580869F0E7AAC0F, -647⟩,
  ⟨0xBAE0A846D2195713, -644⟩,
  ⟨0xE998D258869FACD8, -641⟩,
  ⟨0x91FF83775423CC07, -637⟩,
  ⟨0xB67F6455292CBF09, -634⟩,
  ⟨0xE41F3D6A7377EECB, -631⟩,
  ⟨0x8E938662882AF53F, -627⟩,
  ⟨0xB23867FB2A35B28E, -624⟩,
  ⟨0xDEC681F9F4C31F32, -621⟩,
  ⟨0x8B3C113C38F9F37F, -617⟩,
  ⟨0xAE0B158B4738705F, -614⟩,
  ⟨0xD98DDAEE19068C77, -611⟩,
  ⟨0x87F8A8D4CFA417CA, -607⟩,
  ⟨0xA9F6D30A038D1DBD, -604⟩,
  ⟨0xD47487CC8470652C, -601⟩,
  ⟨0x84C8D4DFD2C63F3C, -597⟩,
  ⟨0xA5FB0A17C777CF0A, -594⟩,
  ⟨0xCF79CC9DB955C2CD, -591⟩,
  ⟨0x81AC1FE293D599C0, -587⟩,
  ⟨0xA21727DB38CB0030, -584⟩,
  ⟨0xCA9CF1D206FDC03C, -581⟩,
  ⟨0xFD442E4688BD304B, -578⟩,
  ⟨0x9E4A9CEC15763E2F, -574⟩,
  ⟨0xC5DD44271AD3CDBB, -571⟩,
  ⟨0xF7549530E188C129, -568⟩,
  ⟨0x9A94DD3E8CF578BA, -564⟩,
  ⟨0xC13A148E3032D6E8, -561⟩,
  ⟨0xF18899B1BC3F8CA2, -558⟩,
  ⟨0x96F5600F15A7B7E6, -554⟩,
  ⟨0xBCB2B812DB11A5DF, -551⟩,
  ⟨0xEBDF661791D60F57, -548⟩,
  ⟨0x936B9FCEBB25C996, -544⟩,
  ⟨0xB84687C269EF3BFC, -541⟩,
  ⟨0xE65829B3046B0AFB, -538⟩,
  ⟨0x8FF71A0FE2C2E6DD, -534⟩,
  ⟨0xB3F4E093DB73A094, -531⟩,
  ⟨0xE0F218B8D25088B9, -528⟩,
  ⟨0x8C974F7383725574, -524⟩,
  ⟨0xAFBD2350644EEAD0, -521⟩,
  ⟨0xDBAC6C247D62A584, -518⟩,
  ⟨0x894BC396CE5DA773, -514⟩,
  ⟨0xAB9EB47C81F51150, -511⟩,
  ⟨0xD686619BA27255A3, -508⟩,
  ⟨0x8613FD0145877586, -504⟩,
  ⟨0xA798FC4196E952E8, -501⟩,
  ⟨0xD17F3B51FCA3A7A1, -498⟩,
  ⟨0x82EF85133DE648C5, -494⟩,
  ⟨0xA3AB66580D5FDAF6, -491⟩,
  ⟨0xCC963FEE10B7D1B4, -488⟩,
  ⟨0xFFBBCFE994E5C620, -485⟩,
  ⟨0x9FD561F1FD0F9BD4, -481⟩,
  ⟨0xC7CABA6E7C5382C9, -478⟩,
  ⟨0xF9BD690A1B68637C, -475⟩,
  ⟨0x9C1661A651213E2E, -471⟩,
  ⟨0xC31BFA0FE5698DB9, -468⟩,
  ⟨0xF3E2F893DEC3F127, -465⟩,
  ⟨0x986DDB5C6B3A76B8, -461⟩,
  ⟨0xBE89523386091466, -458⟩,
  ⟨0xEE2BA6C0678B5980, -455⟩,
  ⟨0x94DB483840B717F0, -451⟩,
  ⟨0xBA121A4650E4DDEC, -448⟩,
  ⟨0xE896A0D7E51E1567, -445⟩,
  ⟨0x915E2486EF32CD61, -441⟩,
  ⟨0xB5B5ADA8AAFF80B9, -438⟩,
  ⟨0xE3231912D5BF60E7, -435⟩,
  ⟨0x8DF5EFABC5979C90, -431⟩,
  ⟨0xB1736B96B6FD83B4, -428⟩,
  ⟨0xDDD0467C64BCE4A1, -425⟩,
  ⟨0x8AA22C0DBEF60EE5, -421⟩,
  ⟨0xAD4AB7112EB3929E, -418⟩,
  ⟨0xD89D64D57A607745, -415⟩,
  ⟨0x87625F056C7C4A8C, -411⟩,
  ⟨0xA93AF6C6C79B5D2E, -408⟩,
  ⟨0xD389B4787982347A, -405⟩,
  ⟨0x843610CB4BF160CC, -401⟩,
  ⟨0xA54394FE1EEDB8FF, -398⟩,
  ⟨0xCE947A3DA6A9273F, -395⟩,
  ⟨0x811CCC668829B888, -391⟩,
  ⟨0xA163FF802A3426A9, -388⟩,
  ⟨0xC9BCFF6034C13053, -385⟩,
  ⟨0xFC2C3F3841F17C68, -382⟩,
  ⟨0x9D9BA7832936EDC1, -378⟩,
  ⟨0xC5029163F384A932, -375⟩,
  ⟨0xF64335BCF065D37E, -372⟩,
  ⟨0x99EA0196163FA42F, -368⟩,
  ⟨0xC06481FB9BCF8D3A, -365⟩,
  ⟨0xF07DA27A82C37089, -362⟩,
  ⟨0x964E858C91BA2656, -358⟩,
  ⟨0xBBE226EFB628AFEB, -355⟩,
  ⟨0xEADAB0ABA3B2DBE6, -352⟩,
  ⟨0x92C8AE6B464FC970, -348⟩,
  ⟨0xB77ADA0617E3BBCC, -345⟩,
  ⟨0xE55990879DDCAABE, -342⟩,
  ⟨0x8F57FA54C2A9EAB7, -338⟩,
  ⟨0xB32DF8E9F3546565, -335⟩,
  ⟨0xDFF9772470297EBE, -332⟩,
  ⟨0x8BFBEA76C619EF37, -328⟩,
  ⟨0xAEFAE51477A06B04, -325⟩,
  ⟨0xDAB99E59958885C5, -322⟩,
  ⟨0x88B402F7FD75539C, -318⟩,
  ⟨0xAAE103B5FCD2A882, -315⟩,
  ⟨0xD59944A37C0752A3, -312⟩,
  ⟨0x857FCAE62D8493A6, -308⟩,
  ⟨0xA6DFBD9FB8E5B88F, -305⟩,
  ⟨0xD097AD07A71F26B3, -302⟩,
  ⟨0x825ECC24C8737830, -298⟩,
  ⟨0xA2F67F2DFA90563C, -295⟩,
  ⟨0xCBB41EF979346BCB, -292⟩,
  ⟨0xFEA126B7D78186BD, -289⟩,
  ⟨0x9F24B832E6B0F437, -285⟩,
  ⟨0xC6EDE63FA05D3144, -282⟩,
  ⟨0xF8A95FCF88747D95, -279⟩,
  ⟨0x9B69DBE1B548CE7D, -275⟩,
  ⟨0xC24452DA229B021C, -272⟩,
  ⟨0xF2D56790AB41C2A3, -269⟩,
  ⟨0x97C560BA6B0919A6, -265⟩,
  ⟨0xBDB6B8E905CB6010, -262⟩,
  ⟨0xED246723473E3814, -259⟩,
  ⟨0x9436C0760C86E30C, -255⟩,
  ⟨0xB94470938FA89BCF, -252⟩,
  ⟨0xE7958CB87392C2C3, -249⟩,
  ⟨0x90BD77F3483BB9BA, -245⟩,
  ⟨0xB4ECD5F01A4AA829, -242⟩,
  ⟨0xE2280B6C20DD5233, -239⟩,
  ⟨0x8D590723948A5360, -235⟩,
  ⟨0xB0AF48EC79ACE838, -232⟩,
  ⟨0xDCDB1B2798182245, -229⟩,
  ⟨0x8A08F0F8BF0F156C, -225⟩,
  ⟨0xAC8B2D36EED2DAC6, -222⟩,
  ⟨0xD7ADF884AA879178, -219⟩,
  ⟨0x86CCBB52EA94BAEB, -215⟩,
  ⟨0xA87FEA27A539E9A6, -212⟩,
  ⟨0xD29FE4B18E88640F, -209⟩,
  ⟨0x83A3EEEEF9153E8A, -205⟩,
  ⟨0xA48CEAAAB75A8E2C, -202⟩,
  ⟨0xCDB02555653131B7, -199⟩,
  ⟨0x808E17555F3EBF12, -195⟩,
  ⟨0xA0B19D2AB70E6ED7, -192⟩,
  ⟨0xC8DE047564D20A8C, -189⟩,
  ⟨0xFB158592BE068D2F, -186⟩,
  ⟨0x9CED737BB6C4183E, -182⟩,
  ⟨0xC428D05AA4751E4D, -179⟩,
  ⟨0xF53304714D9265E0, -176⟩,
  ⟨0x993FE2C6D07B7FAC, -172⟩,
  ⟨0xBF8FDB78849A5F97, -169⟩,
  ⟨0xEF73D256A5C0F77D, -166⟩,
  ⟨0x95A8637627989AAE, -162⟩,
  ⟨0xBB127C53B17EC15A, -159⟩,
  ⟨0xE9D71B689DDE71B0, -156⟩,
  ⟨0x9226712162AB070E, -152⟩,
  ⟨0xB6B00D69BB55C8D2, -149⟩,
  ⟨0xE45C10C42A2B3B06, -146⟩,
  ⟨0x8EB98A7A9A5B04E4, -142⟩,
  ⟨0xB267ED1940F1C61D, -139⟩,
  ⟨0xDF01E85F912E37A4, -136⟩,
  ⟨0x8B61313BBABCE2C7, -132⟩,
  ⟨0xAE397D8AA96C1B78, -129⟩,
  ⟨0xD9C7DCED53C72256, -126⟩,
  ⟨0x881CEA14545C7576, -122⟩,
  ⟨0xAA242499697392D3, -119⟩,
  ⟨0xD4AD2DBFC3D07788, -116⟩,
  ⟨0x84EC3C97DA624AB5, -112⟩,
  ⟨0xA6274BBDD0FADD62, -109⟩,
  ⟨0xCFB11EAD453994BB, -106⟩,
  ⟨0x81CEB32C4B43FCF5, -102⟩,
  ⟨0xA2425FF75E14FC32, -99⟩,
  ⟨0xCAD2F7F5359A3B3F, -96⟩,
  ⟨0xFD87B5F28300CA0E, -93⟩,
  ⟨0x9E74D1B791E07E49, -89⟩,
  ⟨0xC612062576589DDB, -86⟩,
  ⟨0xF79687AED3EEC552, -83⟩,
  ⟨0x9ABE14CD44753B53, -79⟩,
  ⟨0xC16D9A0095928A28, -76⟩,
  ⟨0xF1C90080BAF72CB2, -73⟩,
  ⟨0x971DA05074DA7BEF, -69⟩,
  ⟨0xBCE5086492111AEB, -66⟩,
  ⟨0xEC1E4A7DB69561A6, -63⟩,
  ⟨0x9392EE8E921D5D08, -59⟩,
  ⟨0xB877AA3236A4B44A, -56⟩,
  ⟨0xE69594BEC44DE15C, -53⟩,
  ⟨0x901D7CF73AB0ACDA, -49⟩,
  ⟨0xB424DC35095CD810, -46⟩,
  ⟨0xE12E13424BB40E14, -43⟩,
  ⟨0x8CBCCC096F5088CC, -39⟩,
  ⟨0xAFEBFF0BCB24AAFF, -36⟩,
  ⟨0xDBE6FECEBDEDD5BF, -33⟩,
  ⟨0x89705F4136B4A598, -29⟩,
  ⟨0xABCC77118461CEFD, -26⟩,
  ⟨0xD6BF94D5E57A42BD, -23⟩,
  ⟨0x8637BD05AF6C69B6, -19⟩,
  ⟨0xA7C5AC471B478424, -16⟩,
  ⟨0xD1B71758E219652C, -13⟩,
  ⟨0x83126E978D4FDF3C, -9⟩,
  ⟨0xA3D70A3D70A3D70B, -6⟩,
  ⟨0xCCCCCCCCCCCCCCCD, -3⟩,
  ⟨0x8000000000000000, 1⟩,
  ⟨0xA000000000000000, 4⟩,
  ⟨0xC800000000000000, 7⟩,
  ⟨0xFA00000000000000, 10⟩,
  ⟨0x9C40000000000000, 14⟩,
  ⟨0xC350000000000000, 17⟩,
  ⟨0xF424000000000000, 20⟩,
  ⟨0x9896800000000000, 24⟩,
  ⟨0xBEBC200000000000, 27⟩,
  ⟨0xEE6B280000000000, 30⟩,
  ⟨0x9502F90000000000, 34⟩,
  ⟨0xBA43B74000000000, 37⟩,
  ⟨0xE8D4A51000000000, 40⟩,
  ⟨0x9184E72A00000000, 44⟩,
  ⟨0xB5E620F480000000, 47⟩,
  ⟨0xE35FA931A0000000, 50⟩,
  ⟨0x8E1BC9BF04000000, 54⟩,
  ⟨0xB1A2BC2EC5000000, 57⟩,
  ⟨0xDE0B6B3A76400000, 60⟩,
  ⟨0x8AC7230489E80000, 64⟩,
  ⟨0xAD78EBC5AC620000, 67⟩,
  ⟨0xD8D726B7177A8000, 70⟩,
  ⟨0x878678326EAC9000, 74⟩,
  ⟨0xA968163F0A57B400, 77⟩,
  ⟨0xD3C21BCECCEDA100, 80⟩,
  ⟨0x84595161401484A0, 84⟩,
  ⟨0xA56FA5B99019A5C8, 87⟩,
  ⟨0xCECB8F27F4200F3A, 90⟩,
  ⟨0x813F3978F8940985, 94⟩,
  ⟨0xA18F07D736B90BE6, 97⟩,
  ⟨0xC9F2C9CD04674EDF, 100⟩,
  ⟨0xFC6F7C4045812297, 103⟩,
  ⟨0x9DC5ADA82B70B59E, 107⟩,
  ⟨0xC5371912364CE306, 110⟩,
  ⟨0xF684DF56C3E01BC7, 113⟩,
  ⟨0x9A130B963A6C115D, 117⟩,
  ⟨0xC097CE7BC90715B4, 120⟩,
  ⟨0xF0BDC21ABB48DB21, 123⟩,
  ⟨0x96769950B50D88F5, 127⟩,
  ⟨0xBC143FA4E250EB32, 130⟩,
  ⟨0xEB194F8E1AE525FE, 133⟩,
  ⟨0x92EFD1B8D0CF37BF, 137⟩,
  ⟨0xB7ABC627050305AE, 140⟩,
  ⟨0xE596B7B0C643C71A, 143⟩,
  ⟨0x8F7E32CE7BEA5C70, 147⟩,
  ⟨0xB35DBF821AE4F38C, 150⟩,
  ⟨0xE0352F62A19E306F, 153⟩,
  ⟨0x8C213D9DA502DE46, 157⟩,
  ⟨0xAF298D050E4395D7, 160⟩,
  ⟨0xDAF3F04651D47B4D, 163⟩,
  ⟨0x88D8762BF324CD10, 167⟩,
  ⟨0xAB0E93B6EFEE0054, 170⟩,
  ⟨0xD5D238A4ABE98069, 173⟩,
  ⟨0x85A36366EB71F042, 177⟩,
  ⟨0xA70C3C40A64E6C52, 180⟩,
  ⟨0xD0CF4B50CFE20766, 183⟩,
  ⟨0x82818F1281ED44A0, 187⟩,
  ⟨0xA321F2D7226895C8, 190⟩,
  ⟨0xCBEA6F8CEB02BB3A, 193⟩,
  ⟨0xFEE50B7025C36A09, 196⟩,
  ⟨0x9F4F2726179A2246, 200⟩,
  ⟨0xC722F0EF9D80AAD7, 203⟩,
  ⟨0xF8EBAD2B84E0D58C, 206⟩,
  ⟨0x9B934C3B330C8578, 210⟩,
  ⟨0xC2781F49FFCFA6D6, 213⟩,
  ⟨0xF316271C7FC3908B, 216⟩,
  ⟨0x97EDD871CFDA3A57, 220⟩,
  ⟨0xBDE94E8E43D0C8ED, 223⟩,
  ⟨0xED63A231D4C4FB28, 226⟩,
  ⟨0x945E455F24FB1CF9, 230⟩,
  ⟨0xB975D6B6EE39E437, 233⟩,
  ⟨0xE7D34C64A9C85D45, 236⟩,
  ⟨0x90E40FBEEA1D3A4B, 240⟩,
  ⟨0xB51D13AEA4A488DE, 243⟩,
  ⟨0xE264589A4DCDAB15, 246⟩,
  ⟨0x8D7EB76070A08AED, 250⟩,
  ⟨0xB0DE65388CC8ADA9, 253⟩,
  ⟨0xDD15FE86AFFAD913, 256⟩,
  ⟨0x8A2DBF142DFCC7AC, 260⟩,
  ⟨0xACB92ED9397BF997, 263⟩,
  ⟨0xD7E77A8F87DAF7FC, 266⟩,
  ⟨0x86F0AC99B4E8DAFE, 270⟩,
  ⟨0xA8ACD7C0222311BD, 273⟩,
  ⟨0xD2D80DB02AABD62C, 276⟩,
  ⟨0x83C7088E1AAB65DC, 280⟩,
  ⟨0xA4B8CAB1A1563F53, 283⟩,
  ⟨0xCDE6FD5E09ABCF27, 286⟩,
  ⟨0x80B05E5AC60B6179, 290⟩,
  ⟨0xA0DC75F1778E39D7, 293⟩,
  ⟨0xC913936DD571C84D, 296⟩,
  ⟨0xFB5878494ACE3A60, 299⟩,
  ⟨0x9D174B2DCEC0E47C, 303⟩,
  ⟨0xC45D1DF942711D9B, 306⟩,
  ⟨0xF5746577930D6501, 309⟩,
  ⟨0x9968BF6ABBE85F21, 313⟩,
  ⟨0xBFC2EF456AE276E9, 316⟩,
  ⟨0xEFB3AB16C59B14A3, 319⟩,
  ⟨0x95D04AEE3B80ECE6, 323⟩,
  ⟨0xBB445DA9CA612820, 326⟩,
  ⟨0xEA1575143CF97227, 329⟩,
  ⟨0x924D692CA61BE759, 333⟩,
  ⟨0xB6E0C377CFA2E12F, 336⟩,
  ⟨0xE498F455C38B997B, 339⟩,
  ⟨0x8EDF98B59A373FED, 343⟩,
  ⟨0xB2977EE300C50FE8, 346⟩,
  ⟨0xDF3D5E9BC0F653E2, 349⟩,
  ⟨0x8B865B215899F46D, 353⟩,
  ⟨0xAE67F1E9AEC07188, 356⟩,
  ⟨0xDA01EE641A708DEA, 359⟩,
  ⟨0x884134FE908658B3, 363⟩,
  ⟨0xAA51823E34A7EEDF, 366⟩,
  ⟨0xD4E5E2CDC1D1EA97, 369⟩,
  ⟨0x850FADC09923329F, 373⟩,
  ⟨0xA6539930BF6BFF46, 376⟩,
  ⟨0xCFE87F7CEF46FF17, 379⟩,
  ⟨0x81F14FAE158C5F6F, 383⟩,
  ⟨0xA26DA3999AEF774A, 386⟩,
  ⟨0xCB090C8001AB551D, 389⟩,
  ⟨0xFDCB4FA002162A64, 392⟩,
  ⟨0x9E9F11C4014DDA7F, 396⟩,
  ⟨0xC646D63501A1511E, 399⟩,
  ⟨0xF7D88BC24209A566, 402⟩,
  ⟨0x9AE7575969460760, 406⟩,
  ⟨0xC1A12D2FC3978938, 409⟩,
  ⟨0xF209787BB47D6B85, 412⟩,
  ⟨0x9745EB4D50CE6333, 416⟩,
  ⟨0xBD176620A501FC00, 419⟩,
  ⟨0xEC5D3FA8CE427B00, 422⟩,
  ⟨0x93BA47C980E98CE0, 426⟩,
  ⟨0xB8A8D9BBE123F018, 429⟩,
  ⟨0xE6D3102AD96CEC1E, 432⟩,
  ⟨0x9043EA1AC7E41393, 436⟩,
  ⟨0xB454E4A179DD1878, 439⟩,
  ⟨0xE16A1DC9D8545E95, 442⟩,
  ⟨0x8CE2529E2734BB1E, 446⟩,
  ⟨0xB01AE745B101E9E5, 449⟩,
  ⟨0xDC21A1171D42645E, 452⟩,
  ⟨0x899504AE72497EBB, 456⟩,
  ⟨0xABFA45DA0EDBDE6A, 459⟩,
  ⟨0xD6F8D7509292D604, 462⟩,
  ⟨0x865B86925B9BC5C3, 466⟩,
  ⟨0xA7F26836F282B733, 469⟩,
  ⟨0xD1EF0244AF236500, 472⟩,
  ⟨0x8335616AED761F20, 476⟩,
  ⟨0xA402B9C5A8D3A6E8, 479⟩,
  ⟨0xCD036837130890A2, 482⟩,
  ⟨0x802221226BE55A65, 486⟩,
  ⟨0xA02AA96B06DEB0FE, 489⟩,
  ⟨0xC83553C5C8965D3E, 492⟩,
  ⟨0xFA42A8B73ABBF48D, 495⟩,
  ⟨0x9C69A97284B578D8, 499⟩,
  ⟨0xC38413CF25E2D70E, 502⟩,
  ⟨0xF46518C2EF5B8CD2, 505⟩,
  ⟨0x98BF2F79D5993803, 509⟩,
  ⟨0xBEEEFB584AFF8604, 512⟩,
  ⟨0xEEAABA2E5DBF6785, 515⟩,
  ⟨0x952AB45CFA97A0B3, 519⟩,
  ⟨0xBA756174393D88E0, 522⟩,
  ⟨0xE912B9D1478CEB18, 525⟩,
  ⟨0x91ABB422CCB812EF, 529⟩,
  ⟨0xB616A12B7FE617AB, 532⟩,
  ⟨0xE39C49765FDF9D95, 535⟩,
  ⟨0x8E41ADE9FBEBC27E, 539⟩,
  ⟨0xB1D219647AE6B31D, 542⟩,
  ⟨0xDE469FBD99A05FE4, 545⟩,
  ⟨0x8AEC23D680043BEF, 549⟩,
  ⟨0xADA72CCC20054AEA, 552⟩,
  ⟨0xD910F7FF28069DA5, 555⟩,
  ⟨0x87AA9AFF79042287, 559⟩,
  ⟨0xA99541BF57452B29, 562⟩,
  ⟨0xD3FA922F2D1675F3, 565⟩,
  ⟨0x847C9B5D7C2E09B8, 569⟩,
  ⟨0xA59BC234DB398C26, 572⟩,
  ⟨0xCF02B2C21207EF2F, 575⟩,
  ⟨0x8161AFB94B44F57E, 579⟩,
  ⟨0xA1BA1BA79E1632DD, 582⟩,
  ⟨0xCA28A291859BBF94, 585⟩,
  ⟨0xFCB2CB35E702AF79, 588⟩,
  ⟨0x9DEFBF01B061ADAC, 592⟩,
  ⟨0xC56BAEC21C7A1917, 595⟩,
  ⟨0xF6C69A72A3989F5C, 598⟩,
  ⟨0x9A3C2087A63F639A, 602⟩,
  ⟨0xC0CB28A98FCF3C80, 605⟩,
  ⟨0xF0FDF2D3F3C30BA0, 608⟩,
  ⟨0x969EB7C47859E744, 612⟩,
  ⟨0xBC4665B596706115, 615⟩,
  ⟨0xEB57FF22FC0C795A, 618⟩,
  ⟨0x9316FF75DD87CBD9, 622⟩,
  ⟨0xB7DCBF5354E9BECF, 625⟩,
  ⟨0xE5D3EF282A242E82, 628⟩,
  ⟨0x8FA475791A569D11, 632⟩,
  ⟨0xB38D92D760EC4456, 635⟩,
  ⟨0xE070F78D3927556B, 638⟩,
  ⟨0x8C469AB843B89563, 642⟩,
  ⟨0xAF58416654A6BABC, 645⟩,
  ⟨0xDB2E51BFE9D0696B, 648⟩,
  ⟨0x88FCF317F22241E3, 652⟩,
  ⟨0xAB3C2FDDEEAAD25B, 655⟩,
  ⟨0xD60B3BD56A5586F2, 658⟩,
  ⟨0x85C7056562757457, 662⟩,
  ⟨0xA738C6BEBB12D16D, 665⟩,
  ⟨0xD106F86E69D785C8, 668⟩,
  ⟨0x82A45B450226B39D, 672⟩,
  ⟨0xA34D721642B06085, 675⟩,
  ⟨0xCC20CE9BD35C78A6, 678⟩,
  ⟨0xFF290242C83396CF, 681⟩,
  ⟨0x9F79A169BD203E42, 685⟩,
  ⟨0xC75809C42C684DD2, 688⟩,
  ⟨0xF92E0C3537826146, 691⟩,
  ⟨0x9BBCC7A142B17CCC, 695⟩,
  ⟨0xC2ABF989935DDBFF, 698⟩,
  ⟨0xF356F7EBF83552FF, 701⟩,
  ⟨0x98165AF37B2153DF, 705⟩,
  ⟨0xBE1BF1B059E9A8D7, 708⟩,
  ⟨0xEDA2EE1C7064130D, 711⟩,
  ⟨0x9485D4D1C63E8BE8, 715⟩,
  ⟨0xB9A74A0637CE2EE2, 718⟩,
  ⟨0xE8111C87C5C1BA9A, 721⟩,
  ⟨0x910AB1D4DB9914A1, 725⟩,
  ⟨0xB54D5E4A127F59C9, 728⟩,
  ⟨0xE2A0B5DC971F303B, 731⟩,
  ⟨0x8DA471A9DE737E25, 735⟩,
  ⟨0xB10D8E1456105DAE, 738⟩,
  ⟨0xDD50F1996B947519, 741⟩,
  ⟨0x8A5296FFE33CC930, 745⟩,
  ⟨0xACE73CBFDC0BFB7C, 748⟩,
  ⟨0xD8210BEFD30EFA5B, 751⟩,
  ⟨0x8714A775E3E95C79, 755⟩,
  ⟨0xA8D9D1535CE3B397, 758⟩,
  ⟨0xD31045A8341CA07D, 761⟩,
  ⟨0x83EA2B892091E44E, 765⟩,
  ⟨0xA4E4B66B68B65D61, 768⟩,
  ⟨0xCE1DE40642E3F4BA, 771⟩,
  ⟨0x80D2AE83E9CE78F4, 775⟩,
  ⟨0xA1075A24E4421731, 778⟩,
  ⟨0xC94930AE1D529CFD, 781⟩,
  ⟨0xFB9B7CD9A4A7443D, 784⟩,
  ⟨0x9D412E0806E88AA6, 788⟩,
  ⟨0xC491798A08A2AD4F, 791⟩,
  ⟨0xF5B5D7EC8ACB58A3, 794⟩,
  ⟨0x9991A6F3D6BF1766, 798⟩,
  ⟨0xBFF610B0CC6EDD40, 801⟩,
  ⟨0xEFF394DCFF8A948F, 804⟩,
  ⟨0x95F83D0A1FB69CDA, 808⟩,
  ⟨0xBB764C4CA7A44410, 811⟩,
  ⟨0xEA53DF5FD18D5514, 814⟩,
  ⟨0x92746B9BE2F8552D, 818⟩,
  ⟨0xB7118682DBB66A78, 821⟩,
  ⟨0xE4D5E82392A40516, 824⟩,
  ⟨0x8F05B1163BA6832E, 828⟩,
  ⟨0xB2C71D5BCA9023F9, 831⟩,
  ⟨0xDF78E4B2BD342CF7, 834⟩,
  ⟨0x8BAB8EEFB6409C1B, 838⟩,
  ⟨0xAE9672ABA3D0C321, 841⟩,
  ⟨0xDA3C0F568CC4F3E9, 844⟩,
  ⟨0x8865899617FB1872, 848⟩,
  ⟨0xAA7EEBFB9DF9DE8E, 851⟩,
  ⟨0xD51EA6FA85785632, 854⟩,
  ⟨0x8533285C936B35DF, 858⟩,
  ⟨0xA67FF273B8460357, 861⟩,
  ⟨0xD01FEF10A657842D, 864⟩,
  ⟨0x8213F56A67F6B29C, 868⟩,
  ⟨0xA298F2C501F45F43, 871⟩,
  ⟨0xCB3F2F7642717714, 874⟩,
  ⟨0xFE0EFB53D30DD4D8, 877⟩,
  ⟨0x9EC95D1463E8A507, 881⟩,
  ⟨0xC67BB4597CE2CE49, 884⟩,
  ⟨0xF81AA16FDC1B81DB, 887⟩,
  ⟨0x9B10A4E5E9913129, 891⟩,
  ⟨0xC1D4CE1F63F57D73, 894⟩,
  ⟨0xF24A01A73CF2DCD0, 897⟩,
  ⟨0x976E41088617CA02, 901⟩,
  ⟨0xBD49D14AA79DBC83, 904⟩,
  ⟨0xEC9C459D51852BA3, 907⟩,
  ⟨0x93E1AB8252F33B46, 911⟩,
  ⟨0xB8DA1662E7B00A18, 914⟩,
  ⟨0xE7109BFBA19C0C9E, 917⟩,
  ⟨0x906A617D450187E3, 921⟩,
  ⟨0xB484F9DC9641E9DB, 924⟩,
  ⟨0xE1A63853BBD26452, 927⟩,
  ⟨0x8D07E33455637EB3, 931⟩,
  ⟨0xB049DC016ABC5E60, 934⟩,
  ⟨0xDC5C5301C56B75F8, 937⟩,
  ⟨0x89B9B3E11B6329BB, 941⟩,
  ⟨0xAC2820D9623BF42A, 944⟩,
  ⟨0xD732290FBACAF134, 947⟩,
  ⟨0x867F59A9D4BED6C1, 951⟩,
  ⟨0xA81F301449EE8C71, 954⟩,
  ⟨0xD226FC195C6A2F8D, 957⟩,
  ⟨0x83585D8FD9C25DB8, 961⟩,
  ⟨0xA42E74F3D032F526, 964⟩,
  ⟨0xCD3A1230C43FB270, 967⟩,
  ⟨0x80444B5E7AA7CF86, 971⟩,
  ⟨0xA0555E361951C367, 974⟩,
  ⟨0xC86AB5C39FA63441, 977⟩,
  ⟨0xFA856334878FC151, 980⟩,
  ⟨0x9C935E00D4B9D8D3, 984⟩,
  ⟨0xC3B8358109E84F08, 987⟩,
  ⟨0xF4A642E14C6262C9, 990⟩,
  ⟨0x98E7E9CCCFBD7DBE, 994⟩,
  ⟨0xBF21E44003ACDD2D, 997⟩,
  ⟨0xEEEA5D5004981479, 1000⟩,
  ⟨0x95527A5202DF0CCC, 1004⟩,
  ⟨0xBAA718E68396CFFE, 1007⟩,
  ⟨0xE950DF20247C83FE, 1010⟩,
  ⟨0x91D28B7416CDD27F, 1014⟩,
  ⟨0xB6472E511C81471E, 1017⟩,
  ⟨0xE3D8F9E563A198E6, 1020⟩,
  ⟨0x8E679C2F5E44FF90, 1024⟩
]

end Asteria.RealText
