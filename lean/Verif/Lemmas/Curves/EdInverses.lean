import Mathlib.Data.Nat.Notation

/-!
# Inverses for the multiplication of the base point of Curve25519 by its order

Computed outside of Lean.
-/

set_option autoImplicit false

namespace ElasticElgamal.Curves

/-- Inverses of the denominators of double-and-add for the order of the subgroup of Curve25519. -/
def edInverses : List (ℕ × Option ℕ) := [
  (0x1a22adae5d1332d2ee9fa7bb963ddcb6c91fc6da5b5d64ae8bba3edfd528f530, none),
  (0x6b3fc1e72091db6fd67a7c91943635961e3966006d77f2795d9b4f3631d4b3d7, none),
  (0x4ba0ea017df2de1c973bb7a0663d3bfda6911087d561e0c46735f674110d529f, none),
  (0x93c9b6e2200c08416d2ccae23ed921fb094f6073d13577a05f27812c49c2146, none),
  (0x41a79854b1e3adfaaa8a83510bd5c338a33f95cf69b28ae47386b6895bcfbcfd, none),
  (0x74f621a20e33cea39c94566dab9dc5ceceebe1034c4c0083314ce917368ba3ec, none),
  (0x2385325d9ec6a94228eaef519e8cccbae0df793b488248284854d84e35d0184c, none),
  (0x6a8fdbef3a5c8ffb715faa27981f0c18b46bc53523233e636a124db5aa09efb4, none),
  (0x18cb2548ce4fb1b88ce29eae5b42e37f2f19ae620ab2207cf35ab25c2d8d78c0, none),
  (0x3e6f0ff8867e07447740dee526540f314a932f40f895f3ee57ae4f3c5e84d313, none),
  (0x7cd09005278302e2c63df7886369948b4c690c0e50db4d48c267eb89ae4454f3, none),
  (0xa40d8832d1e8869228b6523b4c78912b9658749e3fafa6aab830dd275376c85, none),
  (0x3f47c6b0112e7250848659eb905748b3d20f11d29654e05fe20c87e0cecc2c35, none),
  (0x77c16bf12d833bae98ec79c67a6be455bb3b3a6f077961978ef4af1f0f019e0, none),
  (0x7682d51cd95c4873a1367cbab79d55d93c65ec2a5c404cd7e8ccdfea10b88bff, none),
  (0x2bd5ab6f7d13ff33706649c4e88e3507e1c762da46d5828fe6aad5995be8e80, none),
  (0x89237a68f73aa91279e93da03bcc45e1c987fd85efbf5866ddb0dd70cd23f58, none),
  (0x60c431830e1fed40d13378e1b5f1b6eceae7be7fb0cc931250c7487f2d45e47c, none),
  (0x40836875d4a6f15b85b5048501bff0e34e5cf08cd674d135f5492f10da581bc4, none),
  (0x5d117eb254ba1d50920d5c0aaceef03b442b3cf1e836d352565e51e2933e7ffb, none),
  (0x235b25f427b5befc2ab435dbc1b126c4eb394ba085a21939cd905953a443cc15, none),
  (0x6c4a790f533a521496939ca6bdc0c39be749b87b116b8d9f59d5e8461457ce7b, none),
  (0x324dd4080a6d111e2e3e92ab2238390fb4720a5274d2e922b64c61ba75b38347, none),
  (0x384c7f9e6f031ab3a6685be951908fab6b219514f20dbe5d770e3b06512747a9, none),
  (0x4997d3e5eed49deeba2b24eb359b28300a303fba003d5177e275a259f5ffa1d2, none),
  (0x4a9e0ed9849fc4983471c1e472c95f3051f37e8682d4961f7744101a11e0f8d7, none),
  (0x41d388746c9a65b6dfb9751c6ce14d5e544d4816afbfc2db4d67d63cec840131, none),
  (0x73572d0d26857457be6d820b6fc4ec4f3cc3611ede504d91bb31d29238f8d066, none),
  (0x1af280a85ad2506b33da018977384cd873a0eff37eab3989eab5976ef873e984, none),
  (0x574a5b4e49952661d9312135b0f5bda2740388381bc4b36db3b57a6b0107ab57, none),
  (0x6e80a68d2b6c5c73bf9b77cbad78cbd8fd9925ccdaf07e81104678c5171fbb55, none),
  (0x10caa3ec825a1da6761864847872f9240db942883c9711493fa06433d95ef119, none),
  (0x1bf1f4febd6fdd8fa4361bedcb820a3ee91948753d805927f2c42fb142811f9a, none),
  (0xa53ad2af59e2e6f7425bb3493cae63648a6f158e7aef3eecee93661950b925c, none),
  (0x176b55eb0168882824e504f1cea29a73e8233c4b930a841abaa079ac3711a607, none),
  (0x77e35245a04299386dcf0ea61ce5dda13017278753d7047aa064f1d872392523, none),
  (0x4bd2a0fca59ac073aeb4b70c74cf66474cec66958d60302329604cf6bf0165b5, none),
  (0x1f443b447f3a81a9ade1f6ba0d75adee5aafb4e326d51a234ccf55289ee52901, none),
  (0x69400670bb4283d20ebeb369c2db48047ff5ba9e60e45a3e953a002bc3aa2a09, none),
  (0xf06c2cb75fdc0f312f4aa59b737fe386f5908ba0ff2df7a47e36306e0f14a6e, none),
  (0x2dde72408499fc6ed069e6c035e2a0fd3441bf03cdfeb9e8182aa79871ef0622, none),
  (0x55ea397f9dcda378ed7d766fcff66f7b6c52a093644acb7018eb04df03434b3a, none),
  (0x5f3582e9188daf3e4aa073300281a43ac4fbba1da62b97afeeeabebde44caa9d, none),
  (0x7df009867c8c7ccd421d16bc8d1702fd5e28755cca4395fb63f292cfabd59376, none),
  (0x68cf8150b479eace107855ffbad1811c503894d51313858d0d5d72034f393e89, none),
  (0x40e1479680d8b93067d1d93df941c0df1d26c33683540e480ce7795ef50e33a8, none),
  (0x6c5f7ef3339b3aa8aabb16420b6b6ee883c7792659f4037b63ec15dda49b8fa8, none),
  (0x7074dc8809bc8002716cf6ba79a9c3d01be569af1403be7e9f74e849292e7c2e, none),
  (0x459c136c11309ef7980e58a0330fa6d07c4655e853b2a9934b774f5e433378ae, none),
  (0x3a8c7cefbea7468cb17877c3e8e0fed20a45579cd6996090f4a3c9efb36da34d, none),
  (0x342b98b2321dfc2491566991d30ece3f6a11b5a1838957e859d3b6715d8203a7, none),
  (0x483c42573a0aee11c7eb053316b586f4fec5df8d4703c9d1e74416d0a90fde3d, none),
  (0x336764a5d7080139430bbae0e20e910f378ea41b2752c650674191a99dcb7b47, none),
  (0x535b835914da40012d8cac53b4fb20e06a42ad3358aaeb1e43b767700757623c, none),
  (0xae6a004f944d20bd6a61d860de9837d0c3b89824c09c7289c9e6d5c32d43e1a, none),
  (0x623ad39124b1068db7781f98490ad71b6b4e3a242110c693577054917b8bb876, none),
  (0x235387224eaf5bacabc3e03de31481cd2ea408662a1e96ae747dc3db0c61c765, none),
  (0x6944b61e9e81516d6e812b7ac60e46176071d11440e1a449d8e13db44226cb0a, none),
  (0x502f98b9ba282ae26d6caf40b60dface01c771acc355e8e9247e6eeed91c0f8d, none),
  (0x31d64cc7b3f1f6827232c9088f7e1d25e882bf423521b4f6927e01d3e226fce4, none),
  (0x75c0a0a93c6db208bc5ea88ee79336ccb35ed0b3991ed645f885cef2acb8cff4, none),
  (0x44f8cb2d9f64f5a8cf2ff09c497f478647a99d8084e3f75cf5bc274325605253, none),
  (0x6c99831913dce6be11944e203d227072a1c2416cfc14b83c53574fc5e1e17566, none),
  (0x7dbe123b1e6a9a9939e18da82f41ec13eb3b7ccb0e29f15563df07a4843d031e, none),
  (0x366fdd1095563c510e0c505d3ab4c6bb8f5423edd0e0f3d870c84781e43e2a0c, none),
  (0x39a5cebfbffea9e73f636b65d3150b33909e26e0065c3715786f6f581a5c020a, none),
  (0x62577b5297ebe5f8203885246743e22954fd3a172f25add9b44c38784c0cd250, none),
  (0x720cd5fdbdb04e681a50a5d0c41094c018c51635de84714f3beca7e462309069, none),
  (0x1f172df7878af666e729fe8cd21a1bd82d29a61d489b79f812662c3f07dd583, none),
  (0x1e31a5af23c204a56f611be4c7f351582493ac5e0435aaa8bdebb83026ea106, none),
  (0x7f662b153593a7aca6c5539885f6e408dd11e55883899db426e9cefc246376b3, none),
  (0x326a3de2af9db510430a68ed335039ef16dc7cc7f3fdb465e0516c7ffe64946d, none),
  (0x4c4ef96535604d117833517da63fbcde170d55e969a4a643b7280bca977c5b33, none),
  (0x5f4f0da3c643007a31f88ab4448bba0fe6f5cd56b9f6be4870b70c8ee4eed4b2, none),
  (0x122e0ebf95fe754512514b651a67681a5731f98981855fe19ce54b77ee5f40e9, none),
  (0xb24659010a0e8ea54c0730d2b190e9856cc706cee8555044adcb6a5e51678d3, none),
  (0x1f1b19b032ee67ef60a8c3bd45615865783c0fd88f60ef2e52b98dd5b9cae899, none),
  (0x61055b2df13559ec6f5bc0d4e696f44dc46a39a7d274b989f7797a149d63ee40, none),
  (0x7621384490e4853fc720f5ef7cb000ad110322592f4eee8dd3703527a4981b97, none),
  (0x435f25bb0f7c8c89c6e473ead90d696259ea8f7b8f1f738676644a60a964adc1, none),
  (0x5a58c9607a39023788ce46c49503857590699eebbcab088f434c60fdaaf13b1b, none),
  (0x7ebd267ffc53c6e4e35e6bb139a6b632f2e01e852eb5b171bf56da7d133e8744, none),
  (0x590da15510d9cb6eb49d7a17cddf011d6137b018ffde4979803cccd2eb6ad361, none),
  (0x716fc46768399718957aa6ec881b7a8699c2373ca12ea9a603183a9a95368206, none),
  (0x286d4f99a22c417a07097ade3069c171443d37f5a4b20f7d4c0b99d547be7ecf, none),
  (0x66cdef65c8ba5addcf71c951479c4959f8841987fc7a0272c6403500fec51f7a, none),
  (0x3350d28e54e7a7388e8b8e040ecd9b7dfb925c81bd2c5272e3430b1b30aa3c4b, none),
  (0x451d5e3b431dfe03d94d10db5fe3ae0954fa08727cbb791f8dd5607dac7f695b, none),
  (0x487d9e74cb1511f755914ddbbf76ced9b7a2729bd020152e29ead21c24045c98, none),
  (0x2ae84990da08b7a944d7f4b38522334494d6671bc1d1e3a2ef661d077a71ecb7, none),
  (0x1908440ffee55524a995f0afbc08600fea3f1e89c374f2f676a9040e1ffcf7cf, none),
  (0x4ddfeee540a7e34fa56b87ec305c64cb5287b299d8c41596b99f057b5c8b5d3d, none),
  (0x2dd417927c4363f8dbcd61c9961d280a447202bedc7d2718e0a7241c72174890, none),
  (0xa04d7433a83d4813fa557aac4a1cf16710f406672f8af0a6fa2b7a286ebbe5c, none),
  (0x191eed2c95981f69827e72cbd4a564e3bcb4647b7a357b71d64ce901c1186d9, none),
  (0x1ab04a98b6ddff60ea77ec86da3cf57fc352a7ebc55b17373f0f2e04ca55ca18, none),
  (0x766ed6deabe9adaf68e5d195ab166db1d4d0dd29bd71b317f067586b23f90aed, none),
  (0x3c100d592acbe099db9e53ed6426bad0e308a71a358587fd8326ae81cea3c9fd, none),
  (0x23121326d9edb32ccfc66c2f9169b0dff2fdf83b42fa2d4097404aca04fc3a05, none),
  (0x49bc144509b11b3c8dae227853f058eb0ca79a0f89bdc12f600bc713ffb4dca0, none),
  (0x6a59eee60a18bde207f6e7b32b1a0f81f4030178561b5c3616148580c7874ec4, none),
  (0x2397c3960d6eae9a7f733884f360b659ad8effe682e4884bfa81aa6f8717d81d, none),
  (0x10101341944f804742acdcd6b2dc95c5a99869145aabbb146813574619ed2927, none),
  (0x27c3b48f6544d373b60edd0a2998a77b92d523f3ea31c00d56786f68cc847470, none),
  (0x30660fccdd47b599c8693f3e0f74b35d6defbbb10f3f2f629bb2bd9cf2887b6f, none),
  (0x7e6dbefd3b5c38032047ff9b02aa060abe5869e9cc48051dd441e05038098c8c, none),
  (0x50cd68eb37dd1f103bf7fcd936688fc51a32a8e8b0ead7ebdf86175a362e855f, none),
  (0x15b4cd54271a72025c9bc01ab0bc6c98ef4c486f01be56f76cbee94de3585ac8, none),
  (0x28b5759a8e8333f59b58226d7ba1854829bf1af2b565dc0eaff33db6329c8675, none),
  (0x422ed3b2da0fd0db43698d88d37bfedd3dd145bc0d2c4be326d1304fd89ad2fe, none),
  (0x98c9e2fc8a9da54a472308a365d851daaca34443eb1e1f5dc533d9f6b195199, none),
  (0x7b44bda9db5fb864163d60b03f646b149715907d64aa9bce3fc5386c46e9e368, none),
  (0x2eca3ed838afaafd7c0e7eb25524f0e5eae7c79f22adb2bbf77f810ec21a2222, none),
  (0x5a713add2c94907c0540a18ff0fddfe1adf5b7e7dd8742a587c79ddbeab419fb, none),
  (0x1c76469f7a18838436ab3c8cd41c30bea16317315157619d02c1a1b4259662e1, none),
  (0x3bb89b9f57b50987d22cb314172ef9588198e9f6788cbca5242284ef3c6f93b9, none),
  (0x200bdef34071129fd336c0d7144f030cb416a3e9e21076076f9cba1a36246a0e, none),
  (0x70b3dd9ceeb6e3a0892b493f1cc8ad29b8ff74ff57d26f7f937f2c41a0a8cac2, none),
  (0x213aff7cbf757bdf5b4b067b4e71ff44060deae0d3b60248b73798cb7505a4c7, none),
  (0x2b2b1e3dff1fa4d4e6786150758bbf347f2a643e0dc8e80f18ec7e9ee2571b72, none),
  (0x2f747635ea072a8d63fc91e276f6549513dfa9828da64fbf512548e491b0315d, none),
  (0x4c34971b9d57e1e8bce98913c4f2a285df920ac687a56667df30098d4f5fd582, none),
  (0x1a5b226482a207217f56ec4270eeb615b5d14df0891d873249b353d67f8d7b75, none),
  (0x5b5e8db06202293c89a056af2685c638364c9400daeeb0b4f99645306d9be275, none),
  (0x45ff86e0a8af49dfb693901851dcee688ee1123f3751abc20ac118881b61b97b, none),
  (0x2fc1d569ce584cc4e8ab64b70d7ebe51358e7d78b300e42b91f51fc1057080da, none),
  (0x2078f5568bd781a2c28d9f924cf1fb914af1102b1998e53dc505c73130543034, none),
  (0x25e0986c6cfe5226cb7e9d0a96d2e7d44f7a22607f6e771e5fe9387669905203,
    some 0x34895a0722543f81975ed5d5d36438e51c926656abaa5ead11e5c134ea2c3aa5),
  (0x14345ffe4c0225eb79154bb23f77a88904d97392cbba558d18e6eeb967c37b3, none),
  (0x3de7032129b16576409969caf20fd53fbc6367f44ba1115965c684f422619f3f,
    some 0x51e265d45608b0bd3db80d4c714dd40faf6124e63a7f6496c2f290617d4a7303),
  (0x366abda11e95a6fae151d46b10d68523626f152828ae0f96eae2001a3c4d57dd, none),
  (0x39d5d80156679c522eb7249a8b6a6f758926307126e9edafa146b710e3cf42a8, none),
  (0x4657107ba8e87362c12d2425d5f3b89c2e9aa431ee228b665e58d595a073844b,
    some 0x79fe953ff006840a3842f45211bab368bd725a0d6eb44dedac406b78fdbe41d0),
  (0x1cf4d3f07ebabed2931a96f919c17d23dee135fbcc21acfd7f8167dafc09ae31,
    some 0x154839571ffcbadd9bc7808401a7dc6ab9d62ece2bf2c6b276c20b37ca293479),
  (0x588066b2c573fdb51d5408d18e84e129767c7e99c16e505b5c6f32fcee79ea9b, none),
  (0x1a6cdfa1730a59f273f2935f6a36df8b307576c8a252a9880e23b360d0360806,
    some 0x586445a76f9e4bdfd7bcf919f063b8623bf9ad9414f5621c7d4d0c3945723f3b),
  (0x63d47d0f86e250ba3f50e0d77c40a8c07e41189c27d96e599747785dd2f7b591,
    some 0x186bb880436500aed1391b83dbb69c1cec5067c1a4739ab5ea894d517fc451cb),
  (0x6b0f6687c8c2c5510c58e07f0a86fcb71b58e7a46bca9c2ec7492ca71adde287,
    some 0xea6dde5bd64d7c09063087fe53bff73cd9c4a83ce9126f974de888f927af144),
  (0x1644e48ebd7ae2ad10060de6014aec259108f692f4a610117d80dd33b3ba849e,
    some 0x2a55ba70289fb278728b0873521b0bf9b4dfb13997fbc633dda201c84d4fb319),
  (0x3b49199e12c89c89a66d683b797e6c108db19d51e8a5e2d3762e5ad93bf3c4a, none),
  (0x445133cead45bb40ff584f3dd6fce19a1806390395b2344a5e1678cc1259b73c,
    some 0x4a291dbf1609c048a3a1dd3b8f0d7bd75489495bd95dafb3ab163d5856be42d),
  (0x2046c9fdb7b72a6fd35caa30a64edb65113b39d383e88560d406ddf2912efba0,
    some 0x1712f7ced008e898febb3b22e3b170f2e657518b56929d45dd959834d7653725),
  (0x3ddf033e8e4bc8fd1c243d6b8f3892d02972905abc21ed46c1784f236ac91596,
    some 0x171c62fbc9eb2965b8a268f74881c55b5a0295246a629c00b8679c2de7599848),
  (0x30c5ccee23c739828a7e533b578951a93647d933b867fc5a53eb2a1971826c7d,
    some 0x520666708384e4dc530de543119fca164f332bfd458add736f5827f10556ecda),
  (0x40d8b3ddaf100501df6739fdd2ac66c9489da7726b0afca3a16af30017b1145e,
    some 0x2a11b59b0a9bc222ad600d7ff1353bf46e58faedf840073aadfbbfaf93bb37f),
  (0x5fdc4f87daa2db3d12e3bdc5240d1188ef33709eb1e0838ea1d3e55e8323a148, none),
  (0x41c48bf32d2873838abed571e193710b344890bfbeb1f3674f79f5150bcc2f51, none),
  (0x8e7a1f2d8510950feaab9ef0390275486ee9dbf3e1b3b009fb6073dbeb3881e,
    some 0x3311549b750b17ef8f1d52ae8b0356a75de814e83a3d1ab5d14d6da2799754a3),
  (0x17634e080253c4c354d0e0c2d6c98c47083b1a78d840a8a9da919fe0f0ef0d21,
    some 0x317807e810e248ec2167e3e9723360514f4a314bdcb2088e00087b8abfde642),
  (0xea710cf38c36aee58c5571fd870655b73a460b968b533acdc74ee06e51d1785,
    some 0x57dd15bcd3963db25af341363f51c1c892c8129b61230aaaf91d7db4e06a70f4),
  (0x58492be264ade709099d9e1516bc336e929d68c238784ad3ba8f893e42773a12, none),
  (0x24593b2fcf917afad96276aa0f655d7767d75d5ad1b6c7f9f16ca81e43a52c06,
    some 0x60dd07484176f1008035188f37331418057461e285360dafe9697731fdf503c4),
  (0x4e9fc9e52087590713b2a769c0ee32b02fc7d8749599484571eb0947a66f4550,
    some 0x18a89c6ec20dcbeab001c7fd5d46de81872b59bcbbd66d42eae5e19e6dd0bf16),
  (0x5022c0faee10af7a67dbff1948f52ac8bb38786cc8c48c07492f9ba1abf1c0fb,
    some 0x72eafa117d1a76808547487a955e4f4d1f81ba83c32c9249365e34ac976fe0cf),
  (0x6d8d9a2a65735d33648c8f48ab72ff50c8b75f716fafddea1e73f92eca931118,
    some 0x7373f90af234b4b4c9eac8643fa4edf72f2be2306a8f7def83389c49f7b21eae),
  (0x46c68fa0d305112de1e12f6db1e748e95f9817267c2ba34f02dbae1710d70070, none),
  (0x10485180d62901357d73d9c1f7d9580208a705242bf71c5d55337b9e4d5168a6,
    some 0x593351119294a6793ec02b3c4a840f0780e4090a159e68a347b0f6bdb47b94cf),
  (0x230740291c9e6dedbab4b7f31d9e5753af0d3bd203ec768bd864e090baeb0ba9, none),
  (0x2ce4bafc893744f61454f145af99a287d075f0877999205322dc6addbb23e43d,
    some 0x3399bee72574931584fa815fd1eeb28e5af639ff093f3905fc27865520dd04b3),
  (0x18cfbbc2beb905475d368e4ac3a46caa8420854e5f98703e8e32cfb57dde4e3b, none),
  (0x571ba246a6ac5958887d270d6229bf15711f9df3ebed5995ecb6db2403de542f, none),
  (0x3f66c648488d1a71a3e329da68d3898122bf881eb80a60e5f0a63ab8384bcc90, none),
  (0x5aecff578f3ba6c11c4c88495e1b7f4a23e53c8252f751904192ee67d232d4a2,
    some 0x276dc011bc77064830577aa2dd0c0e931898da5d83979850a6f76f3b4ac68434),
  (0x4543abf328cad7006a90f7ee6c8e9c6706e30e653b4e9b9ca3dc537025dbc125, none),
  (0x571f4a90143bc4dc9e8351bfdbe77892fab15edd8622b23ff2186c3375520fc6,
    some 0x49c31f39c7399a76fed7d5844e1cbfa1619f6c39468af284ab316faf6b26fe4),
  (0x6d64ddbd2e4a6ba11a05f89adea3163e1fb81bd434ee16e2aa2d51afcefa423f,
    some 0x79ee4121ebc81e5bb5b2cab99ff56b5d94c9ab1c73e2d82ccd109db8b6f417c7),
  (0x6314296d742af234fc22c100b6ee8fe3c7557aeffa939964e5891c036f74df13,
    some 0x4013ab0fa9fe2911a08baa4284b1ad8434959115fecb0176a0cbf059bd615700),
  (0x5ebcb34e93171b647d9d402bb0a62e1e42ffa23f040ba7a993ce6db921e39321,
    some 0xb7e0f8bf3e3daa38a42792ef13542529f6e709932c318e79144ab0069ed4831),
  (0x3edffade20b4ff6b60ba1ede23a43fc1ea2638c23745b5c75f03f6fcb175b494, none),
  (0x71ebbc8e62f374660b1bba0ace7f21827b4adac14b8dfdd2a9d1c5dda61036c2,
    some 0x341b90f7a4c21f4d7564fb28d0aac62fe80d4a4b76c20963898290771616a023),
  (0x78c3b9d329bd5b20166939687a134b379aa517fa07c7549849ff95f5285ca860,
    some 0x26fbab36d587bdd9e932c2020e0fb3347625c43eb359d7a839373362549ce87b),
  (0x93be8b24d44254d7bed5d6a9d79f98deea0a7cdbac998ce5043b3cbc890f196,
    some 0x1c047c65a61a8fb6a93d3221828019a575058923fb42073b9ee7e6891aa493a3),
  (0x1ac820c34d0160e81343d58f6d2107bec9fa32e4765b96dec3ac6f8e84360ccc,
    some 0x3618e0d04e018698b43cd4c421d375185239ed4dc988397b69665048ed164d3),
  (0x65a32e2d61e75198c29d0cb61efb01dfa0210d86acdad8a1984b136257aaa5d3, none),
  (0x4bcd1916088d686839179ce6afe8f3b21ecee096674a837d1a68e856bccae00e, none),
  (0x60e419c7cf381b47c21ded9deaf3e72a6acbd94ad143ba1ece58c1f33c7142e3,
    some 0x1daf2b800a1a779b2321fadc530eac45cd78b86547ca5f07522f065454a463d2),
  (0x12c3e043d5efe96b0468d6a6dcbc03f066fe90aac73059b8b29d852b9d5cb027,
    some 0x3bc5738269def55d30cc671ab748a7a9074b508f7fcfba3f19518ae31ef29b9c),
  (0x14a0efda989b771931fb38de757b9db01ecea358418d369742bb40d963b4d925,
    some 0x63feab5a5193c26246ffe5ed07139df26e1dd6715a57216d136c6c334cdb8295),
  (0x5f42c7ddae367adbc9a1f734435d516cb9aaffe672c6d33213c5e4bfda123233, none),
  (0x4631d678065fbc8a9b93b3014b64ab4770af424122049ad19a6f5d992461a8bc, none),
  (0x5f45f7e295132ec514aa866c70dd1e8326cb953f0c73b86c93503b9156d0ab38,
    some 0x69d5e9bb403a3bf62585fc21f64d1cc63818725196bf4c0f6447dd8b5e275ed2),
  (0x67b5ff059accf8b48c637144a442fcb8cfd6031e52e61666b7941a85a228a54d,
    some 0x106d41be9358b7d7ad81a03ca9a79b1d698b21afb2823ae57c67a2fadfc8480d),
  (0x6e2df7660c3bf71d2d13bf573762236192119a4c51ebb789e3531030dd387cc6, none),
  (0x485bbdb2682df64e1356925d449fc570555d2921b088b2a814247bcfeb242141,
    some 0xbf27945e4d626fc644606afb7ac4fc85bc99f65c5a08a45630c550dcf6bbf4b),
  (0x21ee4c2f806686df7155bf93ad89fb660628ec827a693bf91453840ee2d82508, none),
  (0x125fa39ecfa2c91ebfdd793ce25868ddb3fdefbc1e4e82aa239c4a7beb982390,
    some 0x2398678eaea028e626503151c0a19be4684cde821462eed4c13fb48391b85061),
  (0x5d940846db58aa2aa8e69f1428c01b158764e99c45beaba2e3a647f2e2867c74,
    some 0x251353060bb6e1346021653252b3bf34a0658f0c74edea24cf511686cf4ba8eb),
  (0x6d65e115baae60a0a7acd5e487f2477a7de4c30a724f8b39bb772316e51dca47, none),
  (0x2cbee86eb260ba13eb9e0fe8c9bec1cdb81723e29dc162c260b232d605939194, none),
  (0x1b19d9034f9a8c0d23736576e1003d1d0c8d5a30734c7d36af4d380cf953925e,
    some 0x437b18f43104b5b201558dd8401056ffa28c09e2947de1a7951671e7b12e660b),
  (0x4e74b980a229d8c85ce837d9605aede93470b429d57ccc1338522cf3bad2579e, none),
  (0x3315731bec7398e9f90cdd4cd79084b1ce399bb23ef36c2c8e0fb7995d0734e1,
    some 0x6982f17049d125b271d3097c7f3c82880a6de5043b29dd64fe1351ad62f69229),
  (0x505e28c338257f3e3a0e0ddbf5574e4753ac18ae50e3ea0d21f4c7132b6bda85,
    some 0x6e2c376e66fd7ff2e33a5685437ad714868256a5a4bc94de2c39c5061fee6577),
  (0x54e793f3918ce24828a488720ed8b2b74019d95cf52fe46ade7b0f45ec67fc40, none),
  (0x56e42751ad13180264cda29e9425dd97ae4d45b8b92c0bc1b6892806cfd46571, none),
  (0x61ddc023405f54edf333a9a64d63563117761e88a5847e12d3218ce3dc31aaeb, none),
  (0x2f3667e3b1d3f27de9ca367b013c7e1e12996a6229d1f720c766c0cdc0ed489d, none),
  (0x10ae4a1278ac16375622bf47ec54a89c866441aa6f11389dfc467c452a923021, none),
  (0xdda3cc1d1b09f6045ae3b54519363d9d17980b51a95a5c4ae7cdc08f2df1bc5, none),
  (0x3fe3953c1214f700577261b0331b9cc8f9f718652631a3ff8e7c49a1be1e6e29,
    some 0x701cff5b0abcd88b056ee31c8a242035008d123b0375a911b929a0fb24f929dd),
  (0x7f7b954e23ecfc5eaf7a6f64b8e8b5ea6f3112c32e3186f700484ad4d5b0c0d2, none),
  (0x220f4cc79b325fa39d54489e960b240f13e5004cf7ceca3c7a4bb17d34d32f0e, none),
  (0x4bf79ed96274cc3a36ac174730fb5cb34e0294691ca9d14d771b5fa0829a1aff,
    some 0x6daab2e34a34f5e0252a0369e44c811e590b4fe6a4b66539b9335716b5b53d79),
  (0x19380da02b98db3eaa39df3b27b09c221538e722ec7ba905a1d647b984ab3206, none),
  (0x579b98ccb9fa00a7e0c6ebc8c5a027536d38323c46aabe7aee14fff72e6309bc, none),
  (0x1eb3b2c0f38f51e98fd9b05019e86f0b9aa40edf6cc3bb5f1cc796917419c6ef,
    some 0x2f10e48c87938e75a6a980d39f927345cc2b3e4eb3445339624bbac8622bb08),
  (0x5b9d8123a91dee3ceb116cd70a9fd1a2d2b674566ef60680f07cfa602b994700,
    some 0x1f3eea6f63fd07ffc9943fd879933e2d4878dc2c86905d7644d7b5ea61a521d7),
  (0x17eb239ef1f42472b895b5b22c50aa6664159f26f6e06e6620539a7f6619179f, none),
  (0x38f9efb3128c436ae4dd7d4f4ccfd8d75ac727bf63db1805ab800c97ef28d894, none),
  (0x50bdfc46da1d0b2b26d6c6320efba701a0adb20fcf7c12b5bc56a16a9de63b32, none),
  (0x44c9a0c3e36c14c8741ce4a5eeacaf5fa0c689b5e7a89de5d2b5d90f827fbac5,
    some 0x7a8efc9e705000328dc59b9cb2d278d4f974c458865b45c515319168d4a4ede3),
  (0x7c9974b476e7be3eb9ccf13c5ef85a3cd2fe519d6e5fd6ed28438601b0ef8bc,
    some 0x697f4d6c5c66ff64e679b1e8553e5db25d5ab46aa5dc478e700d131a36332295),
  (0x5974f43e2770183839594cc6cae02617a91526b7d9349b6e67f1ce6a38709373, none),
  (0x5109c5ce1e373575a912d87da6cecc657acc6d8fba37b767a45d3efe796e9b92, none),
  (0x4c515ad62e4dfbf988e01bb0998925ccb1e31430d4c812b217cfa17051910ee4, none),
  (0x2c96f74230ca918590f782cd3f9302af0c46048706ed40b295605aaad3329a2e,
    some 0x7c89a0799e7dba0eea49f0c08700cdb379758d65744cd554147494e07b546892),
  (0x760fef14dae2970ce1e808b46e82385800a5b756ead26289c4f409dad548362c,
    some 0x6c97d407d9cb70e9db56c6fb1999ac1ed1c4402ae8e4094488ecde540572e605),
  (0xf3549e1e6bbffeec834fa31aa8ada8ae87721e8a5bcd8ce9160c8f6c66516f0, none),
  (0x4db3ecb3990066280c610554b199b39d51e33eef0bc719fb0fd421a6afcca60d,
    some 0x5ded4f5262bdb2e31b276d1292276238bc8788964fd73546f6a300d67524547f),
  (0x6cc8e62a6a00d7c3771de191c09117120b284ed402b4ba56af87106973c7f4f6, none),
  (0x39f45873e9a9eb8c62e4a0026d3c3f42c0d3ff58272bc266ea9e01fd746b77b4, none),
  (0x7a68131c0b81a2fc8ae6bed378ebaa51d45b2619af2b665b1a0483b7abec1574,
    some 0x320a53d4b92577bf6fff6e2db401368a0cc4ad53d4a2a77ceaedbb58e7e0d638),
  (0x1cdca319c6594f112a6644da3a9d81ee5a3152b509439cc57f3955370eb9f47f, none),
  (0x40c775f6af6d95a2618e1d2b3f5cbd2931ad227f8069f714c986f4302ae848f4,
    some 0x4272a2fd75b75e0b2bbde54ddefc79cff17ac3ffe088167e2e97aae21b8458ea),
  (0x7047348565aebf4f09e4908b082d65813555a7655da8426637ff9f5aa8f2b091,
    some 0x33aa27a3a5b1f489064e0c392d966383ff6f47b1ec187e6507237216eb7eaa44),
  (0x16fa63004d2bad27046d7449718797fee2ea4546ecaf43a20c622a6382e25679,
    some 0x2df427988191a08c2a742f7adc3e2d0c8627d6c5114cfab7bd81283ddc196aa0),
  (0x11c4918c861549f9bd5ec4f47b0ae9b93b3b4464c422dcbc4b9bdf99344dbc6d, none),
  (0x345259056b9a929e12d7317e567ab3fc2c0424093df2f64e2efbeefc1b040200, none),
  (0x6e1d64304c7d568b2038ad6d46efc6049e313e481f57be215af2d7c6af59f123,
    some 0x753229564cee3bab507f3042b33bd86fdc2ec63ce555f2b41069eeb46551f76d),
  (0x730c5573b257a341b9f57fc5d3067b79bb7e3414a28c52abecb1677a90764711,
    some 0x4a68d83d9fe0feeeb1416892a0543f43e13725b8604e681f352643e3ee990fc7),
  (0x5efd949ed70e8b83bb6c3ba645145d44238809bdd24fce246ca0f051db9f3d83,
    some 0x65c1fb03938844cd3284bb805dcbd8457f88254d939f1c92e2298e293d6499cf),
  (0x7fb0d127fd1487acd1e7433019f34cfa10901043faa8d3c4f6109bb884ed3bd1,
    some 0x68f00a28749c90844f1004cc742167b6760c46ce96028ca6aecf164d72a1671e),
  (0x7e4e704f8467f5eeb53081072eb459ab66eacf5444d3e31ca88df351722cf871, none),
  (0x6a261e02a1aaa5d78ba0b904b5cb300b9199b4f0be1f670837912caccd6a1607,
    some 0x3f9f39e978495f162b7d4d9b3dcafb953418bc425c6d796e172a8b80a6201c70),
  (0x252308bdf5129b176a2166e4b51ab6695833fafdc1d745c60f126efb8a7cde, none),
  (0x5671c51bd98555e564ef01cc480890450c654fcb7e3c070f1e79f4ab30b858dc,
    some 0x476fab580da5c3b5a08c45afc70c9c15096c0eb04e9afc84dd82faa406e34df3),
  (0x7822586cf5c2f6f39c54c47f4a0ce1feb26ab92451e3eb8bb9404c5768b7b6d4,
    some 0xdaef7f2e93f1d75039c7f0647b99623be494040fe72669c00e9822dcccc3792),
  (0x499d3caf2f7afe09abf8a33b034e12ffc6fcf8ab04fc01aee89fd5bbbca193f1,
    some 0x74400c7bd5a475f7a22616a9da242b93dcea54c118ebd6f9699acc606212be8b),
  (0x2444879f97c3bbb7d92fad0fb7206c21e0e3eca61f80127fae75a209809b03fd, none),
  (0x54bcd52a2b83442aecd3fddfa28e44bb812cc5703c2b45c9e6a5da6c98e32171,
    some 0x7c9196d0e040a678893773ddde1530bc74bd2b9b78170e406a7c3f9ce99e4dfe),
  (0x7204425efca0098523429faa6b16a5ca50afdecb8f4d22aabe00d617b1c7f51a, none),
  (0x16da92a4d6aacf18de6e93981651a9ca6c69cd175a263e239616a650fa531d9f, none),
  (0x326a09fa413271eae59260b94012e9b8030aa23e30069f39e2708cacb7f51fb6,
    some 0x2e9eb7298be8a32e76d36c11738b4852d277eeb7b87e7e49aaa21aec1c0fbaec),
  (0x59e970570415043548f5d53df778a747757177c37615371e0f3f71ee6966a1b3,
    some 0x3daa9d8bf0e45213e7ace504f7eb2bda5f96ca9eef68c307c5b799952fc17b7e),
  (0x4c81c476dc7d2ba28243a8eb9c252c5331a3abf510a53047e3781789571e42d2,
    some 0x2e1d02b14c5ce04b778bc2bd69b824871b42ed9cc6fa9f19e515fe284e5e2a3a),
  (0x4d3513703978587e9d628aa8589bca62e2a8000fcec8c58609741d9ebeb96a9a,
    some 0x4093666904645d96215e14c58a09e6f2710315864c763db646b33a12667309b1),
  (0x1939d1026ddc1704cccda8657a9393790fa9a66045cae9e1d3cae4953dedcaec,
    some 0x1147cee21638caf29d9fabd1f2eb3dc6ee5ed9813600ac74cd9717fe93f39ec5),
  (0xebb585f7c76110303ad46ae72853a8b941d2a76113d68724ffa9d997fcf8063, none),
  (0x7e70ee046805a6ec5fb523136863fbe0257cb0ac62df92cb1b3f44321b6f8c86,
    some 0x25bdece3b85dbe2e8d91db8aeb2c1484ed944f046cb6daaacab91a663d2bebaf),
  (0x7f2c0d3d6bae7b0ab68350cd4b1dcd0f8e1348a19c98a04618afc5fd7fb3a79,
    some 0x3fc9a0b0406058b0092010f11222cf83bc47aea57fca3fbe157543ded8b178fa),
  (0x650c806aa475e43688ceb95783229b46fd4fe1ebff5b270a2aa3524f1f5f6a7f, none),
  (0x6d96ff28ad1bfd428a1b46b13a9e61af6a4006ba3f67b4a72b644dd52114eccf,
    some 0x1a22adae5d1332d2ee9fa7bb963ddcb6c91fc6da5b5d64ae8bba3edfd528f530)]

end ElasticElgamal.Curves
