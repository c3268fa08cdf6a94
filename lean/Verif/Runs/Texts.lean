import Verif.Value

/-!
# Texts of the integration tests

Written by `tools/runs.py`: rule files, tables and dialogs, copied from `tests/integration`.
-/

namespace Verif.Runs

/-- `tests/integration/sir/intents.pl`. -/
def sirIntents : String :=
  "# teach\nintent_teach(A) :- store(A), store(output_type('understand')).\n\n# part of\nintent_part_of(A, B) :- (\n    # Is a nostril part of a professor?\n    proper_part_of(A, B), store(output_type('yes'))\n    # Is a nostril part of a living-creature?\n;   proper_isa(BB, B), proper_part_of(A, BB), store(output_type('sometimes'))\n    # Is a nose part of a nose?\n;   equals(A, B), store(output_type('no_subpart'))\n    # Is a living-creature part of a nose?\n;   proper_isa(AA, A), proper_part_of(B, AA), store(output_type('reverse_sometimes'))\n).\n\n# is a\nintent_isa(A, B) :- (\n    # is a girl a person?\n    full_isa(A, B), store(output_type('yes'))\n    # is a person a girl?\n;   proper_isa(B, A), store(output_type('sometimes'))\n    # is a person a person?\n;   equals(A, B), store(output_type('yes'))\n    # otherwise\n;   store(output_type('unknown'))\n).\n\n# count\n# not(output_type(T)) means: no output has been produced yet\nintent_count(Atoms) :- count(C, Atoms), not(output_type(T)), store(output_type('count'), output_count(C)).\n\n# yes/no\nintent_yn(Atoms) :- (\n    scoped(Atoms), store(output_type('yes'))\n;\n    store(output_type('no'))\n).\n\n# own\n# Every fireman owns a pair-of-red-suspenders. A firechief is a fireman. Does a firechief own a pair-of-red-suspenders?\n# Alfred owns a log-log-decitrig. A log-log-decitrig is a slide-rule. Does Alfred own a slide-rule?\nintent_own(A, B) :- proper_own(A, B), store(output_type('yes')).\n\nintent_some_own(A, B) :- (\n    # own in some cases, but not all\n    proper_own(A, B), store(output_type('yes'))\n    # Alfred is a tech-man\n    # A tech-man is an engineering-student\n    # Alfred owns a log-log-decitrig\n    # Does an engineering-student own a log-log-decitrig?\n;   proper_isa(AA, A), own(AA, B), store(output_type('yes'))\n    # Does a pair-of-red-suspenders own a pair-of-red-suspenders?\n;   equals(A, B), store(output_type('no_same'))\n    # otherwise\n;   store(output_type('unknown'))\n).\n\n# claim\n# NB the order is important, because `store` changes the state\nintent_claim(Atom) :- not(check_claim(Atom)), store(output_type('impossible')).\nintent_claim(Atom) :- check_claim(Atom), store(Atom), store(output_type('understand')).\n\n# where\nintent_where(Variable, Body) :-\n    find_one(Variable, Body, Object),\n    store(output_type('location'), output_location(Object)).\n\n# position\nintent_position() :-\n    store(output_type('position')).\n"

/-- `tests/integration/sir/inferences.pl`. -/
def sirInferences : String :=
  "# isa\nproper_isa(A, B) :- isa(A, B).\nproper_isa(A, B) :- isa(A, C), proper_isa(C, B).\n\n# isa including identity\nfull_isa(A, A).\nfull_isa(A, B) :- proper_isa(A, B).\n# equality: John is Jack\nfull_isa(A, B) :- identical(A, B).\nfull_isa(A, B) :- identical(B, A).\nfull_isa(A, B) :- identical(A, C), proper_isa(C, B).\nfull_isa(A, B) :- identical(C, A), proper_isa(C, B).\nfull_isa(A, B) :- identical(B, C), proper_isa(A, C).\nfull_isa(A, B) :- identical(C, B), proper_isa(A, C).\n\n#own\n# find generalizations of A, find specializations of B\nproper_own(A, B) :- full_isa(A, AA), full_isa(BB, B), own(AA, BB).\n\n# part-of\n# find specializations of A, find generalizations of B\nproper_part_of(A, B) :- full_isa(AA, A), full_isa(B, BB), part_of(AA, BB).\n# part-of is transitive\nproper_part_of(A, B) :- full_isa(A, AA), part_of(AA, C), proper_part_of(C, B).\n\n# part-of with number\npart_of_number(A, B, N) :- (\n    # direct, non inheriting\n    part_of(A, B), part_of_n(A, B, N)\n;   # direct, inheriting\n    full_isa(AA, A), full_isa(B, BB), part_of(AA, BB), part_of_n(AA, BB, N)\n;   # transitive, non inheriting\n    part_of(C, B), part_of(A, C), part_of_n(C, B, N1), part_of_number(A, C, N2), multiply(N1, N2, N)\n;   # transitive, inheriting\n    full_isa(B, BB), part_of(C, BB), part_of(A, C), part_of_n(C, BB, N1), part_of_number(A, C, N2), multiply(N1, N2, N)\n).\n\n# position\n# in the context of a question, left_of is transitive\nleft_of(A, B) :- context('question'), just_left_of(A, B).\nleft_of(A, B) :- context('question'), just_left_of(A, C), left_of(C, B).\nleft_of(A, B) :- context('question'), just_left_of(C, B), left_of(A, C).\n\n# if A is part of B, it has the same position as B\n# todo: can use `proper_part_of`\njust_left_of(A, B) :- part_of(A, C), isa(D, C), just_left_of(D, B).\njust_left_of(B, A) :- part_of(A, C), isa(D, C), just_left_of(B, D).\nleft_of(A, B) :- part_of(A, C), isa(D, C), left_of(D, B).\nleft_of(B, A) :- part_of(A, C), isa(D, C), left_of(B, D).\n\n\nsomewhere_left_of(A, B) :- left_of(A, B), not(just_left_of(A, B)).\n\ncheck_claim(Atom) :- destructure(Atom, 'just_left_of', A, B), check_just_left_of(A, B).\ncheck_claim(Atom) :- destructure(Atom, 'left_of', A, B), check_left_of(A, B).\n\n# check if the position just left of A is not already occupied\n# check if A not to the right of B\ncheck_just_left_of(A, B) :- not(just_left_of(A, C)), not(left_of(B, A)).\n# check if A not to the right of B\ncheck_left_of(A, B) :- not(left_of(B, A)).\n"

/-- `tests/integration/sir/test.py:98-220`. -/
def sirTests : List (String × Value) := [
  ("Every keypunch-operator is a girl", .str "I understand"),
  ("Any girl is an example of a person", .str "I understand"),
  ("Is a keypunch-operator a person?", .str "Yes"),
  ("Is a person a person?", .str "Yes"),
  ("Is a person a girl?", .str "Sometimes"),
  ("Is a monkey a keypunch-operator?", .str "Insufficient information"),
  ("Max is an IBM-7094", .str "I understand"),
  ("An IBM-7094 is a computer", .str "I understand"),
  ("Is Max a computer?", .str "Yes"),
  ("Jack is a dope", .str "I understand"),
  ("John is Jack", .str "I understand"),
  ("Is John a dope?", .str "Yes"),
  ("Every fireman owns a pair-of-red-suspenders", .str "I understand"),
  ("Does a pair-of-red-suspenders own a pair-of-red-suspenders?", .str "No, they are the same"),
  ("Does a doctor own a pair-of-red-suspenders?", .str "Insufficient information"),
  ("A firechief is a fireman", .str "I understand"),
  ("Does a firechief own a pair-of-red-suspenders?", .str "Yes"),
  ("Alfred owns a log-log-decitrig", .str "I understand"),
  ("A log-log-decitrig is a slide-rule", .str "I understand"),
  ("Does Alfred own a slide-rule?", .str "Yes"),
  ("Every engineering-student owns a slide-rule", .str "I understand"),
  ("Vernon is a tech-man", .str "I understand"),
  ("A tech-man is an engineering-student", .str "I understand"),
  ("Does Vernon own a slide-rule?", .str "Yes"),
  ("Does an engineering-student own a log-log-decitrig?", .str "Insufficient information"),
  ("Alfred is a tech-man", .str "I understand"),
  ("Does an engineering-student own a log-log-decitrig?", .str "Yes"),
  ("A nose is part of a person", .str "I understand"),
  ("A nostril is part of a nose", .str "I understand"),
  ("A professor is a teacher", .str "I understand"),
  ("A teacher is a person", .str "I understand"),
  ("Is a nostril part of a professor?", .str "Yes"),
  ("Is a nose part of a nose?", .str "No, part means proper subpart"),
  ("A person is a living-creature", .str "I understand"),
  ("Is a nostril part of a living-creature?", .str "Sometimes"),
  ("Is a living-creature part of a nose?", .str "No, but the reverse is sometimes true"),
  ("A van-dyke is part of Ferren", .str "I understand"),
  ("A van-dyke is a beard", .str "I understand"),
  ("Is a beard part of Ferren?", .str "Yes"),
  ("A crt is a display-device", .str "I understand"),
  ("A crt is part of the PDP-1", .str "I understand"),
  ("Sam is the PDP-1", .str "I understand"),
  ("A screen is part of every display-device", .str "I understand"),
  ("Is a screen part of Sam?", .str "Yes"),
  ("A beard is part of a beatnik", .str "I understand"),
  ("Every coffee-house-customer is a beatnik", .str "I understand"),
  ("Buzz is a coffee-house-customer", .str "I understand"),
  ("Is a beard part of Buzz?", .str "Yes"),
  ("Every boy is a person", .str "I understand"),
  ("A finger is a part of a hand", .str "I understand"),
  ("There are two hands on each person", .str "I understand"),
  ("How many fingers does John have?", .str "Don't know whether finger is part of John"),
  ("John is a boy", .str "I understand"),
  ("How many fingers does John have?", .str "How many finger per hand?"),
  ("Every hand has 5 fingers", .str "I understand"),
  ("How many fingers does John have?", .str "The answer is 10"),
  ("The telephone is just to the right of the book", .str "I understand"),
  ("The telephone is just to the left of the pad", .str "I understand"),
  ("Is the pad just to the right of the book?", .str "No"),
  ("Is the book to the left of the pad?", .str "Yes"),
  ("The pad is to the right of the telephone", .str "I understand"),
  ("The pad is to the left of the telephone", .str "The above statement is impossible"),
  ("The ash-tray is to the left of the book", .str "I understand"),
  ("The pencil is to the left of the pad", .str "I understand"),
  ("The paper is to the right of the telephone", .str "I understand"),
  ("Where is the pad?", .str "Just to the right of the telephone.  Somewhere to the right of the following .. (pencil)"),
  ("What is the position of the pad?", .str "The left-to-right order is as follows: <the ordered list>"),
  ("The book is just to the right of the ash-tray", .str "I understand"),
  ("What is the position of the pad?", .str "The left-to-right order is as follows: <the ordered list>"),
  ("A telephone is an audio-transducer", .str "I understand"),
  ("A diaphragm is part of an audio-transducer", .str "I understand"),
  ("Where is the diaphragm?", .str "Just to the left of the pad. Just to the right of the book. Somewhere to the left of the following .. (paper)"),
  ("Tom is a boy", .str "I understand"),
  ("Dick is a boy", .str "I understand"),
  ("Harry is a boy", .str "I understand"),
  ("Tom has nine fingers", .str "I understand"),
  ("Dick has one hand", .str "I understand"),
  ("How many fingers does Tom have?", .str "The answer is 9"),
  ("How many fingers does Dick have?", .str "The answer is 5"),
  ("How many fingers does Harry have?", .str "The answer is 10")]

/-- `tests/integration/chat80/inferences.pl`. -/
def chatInferences : String :=
  "in(A, B) :- contains(B, A).\nin(A, B) :- contains(C, A), in(C, B).\n"

/-- `tests/integration/chat80/intents.pl`. -/
def chatIntents : String :=
  "# intent predicates\n\nintent_list(E1, Sem) :-\n    find_all(E1, Sem, Elements),\n    store(output_type('list'), output_list(Elements)).\n\nintent_table(Variables, Units, Body) :-\n    find_all(Variables, Body, Results),\n    store(output_type('table'), output_table(Results, Units)).\n\nintent_yn(Body) :- (\n    scoped(Body),  store(output_type('yes'))\n;   store(output_type('no'))\n).\n\nintent_value(Variable, Sem) :-\n    find_one(Variable, Sem, Result),\n    store(output_type('value'), output_value(Result)).\n\nintent_value_with_unit(Variable, Unit, Sem) :-\n    find_one(Variable, Sem, Result),\n    store(output_type('value_with_unit'), output_value_with_unit(Result, Unit)).\n\nintent_close_conversation() :-\n    store(output_type('close_conversation')).\n"

/-- `tests/integration/chat80/test.py:96-142`. -/
def chatTests : List (String × Value) := [
  ("What rivers are there?", .str "amazon, amu_darya, amur, brahmaputra, colorado, congo_river, cubango, danube, don, elbe, euphrates, ganges, hwang_ho, indus, irrawaddy, lena, limpopo, mackenzie, mekong, mississippi, murray, niger_river, nile, ob, oder, orange, orinoco, parana, rhine, rhone, rio_grande, salween, senegal_river, tagus, vistula, volga, volta, yangtze, yenisei, yukon, zambesi"),
  ("Does Afghanistan border China?", .str "yes"),
  ("What is the capital of Upper_Volta?", .str "ouagadougou"),
  ("Where is the largest country?", .str "northern_asia"),
  ("Which countries are European?", .str "albania, andorra, austria, belgium, bulgaria, cyprus, czechoslovakia, denmark, east_germany, eire, finland, france, greece, hungary, iceland, italy, liechtenstein, luxembourg, malta, monaco, netherlands, norway, poland, portugal, romania, san_marino, spain, sweden, switzerland, united_kingdom, west_germany, yugoslavia"),
  ("Which country's capital is London?", .str "united_kingdom"),
  ("Which is the largest african country?", .str "sudan"),
  ("How large is the smallest american country?", .str "0 ksqmiles"),
  ("What is the ocean that borders African countries?", .str "atlantic, indian_ocean"),
  ("What is the ocean that borders African countries and that borders Asian countries?", .str "indian_ocean"),
  ("What are the capitals of the countries bordering the Baltic?", .list [.list [.str "denmark", .str "copenhagen"], .list [.str "east_germany", .str "east_berlin"], .list [.str "finland", .str "helsinki"], .list [.str "poland", .str "warsaw"], .list [.str "soviet_union", .str "moscow"], .list [.str "sweden", .str "stockholm"], .list [.str "west_germany", .str "bonn"]]),
  ("Which countries are bordered by two seas?", .str "egypt, iran, israel, saudi_arabia, turkey"),
  ("How many countries does the Danube flow through?", .num 6),
  ("What are the countries south of the Equator and not in Australasia?", .str "angola, argentina, bolivia, botswana, brazil, burundi, chile, congo, ecuador, indonesia, lesotho, malagasy, malawi, mauritius, mozambique, paraguay, peru, rwanda, seychelles, south_africa, swaziland, tanzania, uruguay, zaire, zambia, zimbabwe"),
  ("What is the total area of countries south of the Equator and not in Australasia?", .str "10228 ksqmiles"),
  ("What is the average area of the countries in each continent?", .list [.list [.str "africa", .str "233 ksqmiles"], .list [.str "america", .str "496 ksqmiles"], .list [.str "asia", .str "485 ksqmiles"], .list [.str "australasia", .str "543 ksqmiles"], .list [.str "europe", .str "58 ksqmiles"]]),
  ("Is there more than one country in each continent?", .str "no"),
  ("Is there some ocean that does not border any country?", .str "yes"),
  ("What are the countries from which a river flows into the Black_Sea?", .str "romania, soviet_union"),
  ("What are the continents no country in which contains more than two cities whose population exceeds 1 million?", .str "africa, antarctica, australasia"),
  ("Which country bordering the Mediterranean borders a country that is bordered by a country whose population exceeds the population of India?", .str "turkey"),
  ("Which countries have a population exceeding 10 million?", .str "afghanistan, algeria, argentina, australia, bangladesh, brazil, burma, canada, china, colombia, czechoslovakia, east_germany, egypt, ethiopia, france, india, indonesia, iran, italy, japan, kenya, mexico, morocco, nepal, netherlands, nigeria, north_korea, pakistan, peru, philippines, poland, south_africa, south_korea, soviet_union, spain, sri_lanka, sudan, taiwan, tanzania, thailand, turkey, united_kingdom, united_states, venezuela, vietnam, west_germany, yugoslavia, zaire"),
  ("Which countries with a population exceeding 10 million border the Atlantic?", .str "argentina, brazil, canada, colombia, france, mexico, morocco, netherlands, nigeria, south_africa, spain, united_kingdom, united_states, venezuela, west_germany, zaire"),
  ("What percentage of countries border each ocean?", .list [.list [.str "arctic_ocean", .str "2"], .list [.str "atlantic", .str "36"], .list [.str "indian_ocean", .str "14"], .list [.str "pacific", .str "20"], .list [.str "southern_ocean", .str "0"]]),
  ("What countries are there in Europe?", .str "albania, andorra, austria, belgium, bulgaria, cyprus, czechoslovakia, denmark, east_germany, eire, finland, france, greece, hungary, iceland, italy, liechtenstein, luxembourg, malta, monaco, netherlands, norway, poland, portugal, romania, san_marino, spain, sweden, switzerland, united_kingdom, west_germany, yugoslavia"),
  ("Bye.", .str "Cheerio.")]

/-- `tests/integration/chat80/resources/continent.csv`, without empty lines. -/
def chatContinent : String :=
  "id\nafrica\namerica\nantarctica\nasia\naustralasia\neurope"

/-- `tests/integration/chat80/resources/ocean.csv`, without empty lines. -/
def chatOcean : String :=
  "id\narctic_ocean\natlantic\nindian_ocean\npacific\nsouthern_ocean"

/-- `tests/integration/chat80/resources/sea.csv`, without empty lines. -/
def chatSea : String :=
  "id\nbaltic\nblack_sea\ncaspian\nmediterranean\npersian_gulf\nred_sea"

/-- `tests/integration/chat80/resources/river.csv`, without empty lines. -/
def chatRiver : String :=
  "id,flows_through\namazon,atlantic|brazil|peru\namu_darya,aral_sea|soviet_union|afghanistan\namur,pacific|soviet_union|china|mongolia\nbrahmaputra,indian_ocean|bangladesh|china\ncolorado,pacific|mexico|united_states\ncongo_river,atlantic|zaire|zambia\ncubango,botswana|south_africa|angola\ndanube,black_sea|romania|yugoslavia|hungary|czechoslovakia|austria|west_germany\ndon,black_sea|soviet_union\nelbe,atlantic|west_germany|east_germany|czechoslovakia\neuphrates,persian_gulf|iraq|syria|turkey\nganges,indian_ocean|india|china\nhwang_ho,pacific|china\nindus,indian_ocean|pakistan|india|china\nirrawaddy,indian_ocean|burma\nlena,arctic_ocean|soviet_union\nlimpopo,indian_ocean|mozambique|south_africa\nmackenzie,arctic_ocean|canada\nmekong,pacific|vietnam|cambodia|laos|china\nmississippi,atlantic|united_states\nmurray,indian_ocean|australia\nniger_river,atlantic|nigeria|niger|mali|guinea\nnile,mediterranean|egypt|sudan|uganda\nob,arctic_ocean|soviet_union\noder,baltic|poland|czechoslovakia\norange,atlantic|south_africa|lesotho\norinoco,atlantic|venezuela|colombia\nparana,atlantic|argentina|paraguay|brazil\nrhine,atlantic|netherlands|west_germany|switzerland\nrhone,mediterranean|france|switzerland\nrio_grande,atlantic|mexico|united_states\nsalween,indian_ocean|burma|china\nsenegal_river,atlantic|senegal|mali|guinea\ntagus,atlantic|portugal|spain\nvistula,baltic|poland\nvolga,black_sea|soviet_union\nvolta,atlantic|ghana|upper_volta\nyangtze,pacific|china\nyenisei,arctic_ocean|soviet_union|mongolia\nyukon,pacific|united_states|canada\nzambesi,indian_ocean|mozambique|zambia|angola"

/-- `tests/integration/chat80/resources/city.csv`, without empty lines. -/
def chatCity : String :=
  "id,country,population\nbelle_mead,united_states,8\nathens,greece,1368\nbangkok,thailand,1178\nbarcelona,spain,1280\nberlin,east_germany,3481\nbirmingham,united_kingdom,1112\nbombay,india,2839\nbrussels,belgium,986\nbucharest,romania,1237\nbudapest,hungary,1757\nbuenos_aires,argentina,3404\ncairo,egypt,2373\ncalcutta,india,2549\ncanton,china,1496\ncaracas,venezuela,488\nchicago,united_states,3621\nchungking,china,1100\ndairen,china,544\ndelhi,india,1744\ndetroit,united_states,1850\nglasgow,united_kingdom,1090\nhamburg,west_germany,1700\nharbin,china,760\nhongkong_city,hongkong,2440\nhyderabad,india,1086\nistanbul,turkey,1215\njakarta,indonesia,533\njohannesburg,south_africa,880\nkarachi,pakistan,1126\nkiev,soviet_union,991\nkobe,japan,765\nkowloon,china,547\nkyoto,japan,1204\nleningrad,soviet_union,2800\nlima,peru,835\nlondon,united_kingdom,8346\nlos_angeles,united_states,1970\nmadras,india,1416\nmadrid,spain,1700\nmanila,philippines,1025\nmelbourne,australia,1595\nmexico_city,mexico,3796\nmilan,italy,1269\nmontreal,canada,1109\nmoscow,soviet_union,4800\nmukden,china,1551\nnagoya,japan,1337\nnanking,japan,1020\nnaples,italy,1012\nnew_york,united_states,7795\nosaka,japan,2547\nparis,france,2850\npeking,china,2031\nphiladelphia,united_states,2072\npusan,south_korea,474\nrio_de_janeiro,brazil,2413\nrome,italy,1760\nsaigon,vietnam,695\nsantiago,chile,1350\nsao_paulo,brazil,2228\nseoul,south_korea,1446\nshanghai,china,5407\nsian,china,629\nsingapore_city,singapore,1264\nsydney,australia,1898\ntehran,iran,1010\ntientsin,china,1795\ntokyo,japan,8535\ntoronto,canada,668\nvienna,austria,1766\nwarsaw,poland,965\nyokohama,japan,1143"

/-- `tests/integration/chat80/resources/country.csv`, without empty lines. -/
def chatCountry : String :=
  "id,region,lat,long,area_div_1000,area_mod_1000,population,population_mod_1000000_div_1000,capital,currency\nafghanistan,indian_subcontinent,33,-65,254,861,18,290,kabul,afghani\nalbania,southern_europe,41,-20,11,100,2,350,tirana,lek\nalgeria,north_africa,35,-11,919,951,15,770,algiers,dinar\nandorra,southern_europe,42,-1,0,179,0,25,andorra_la_villa,franc_peseta\nangola,southern_africa,-12,-18,481,351,5,810,luanda,?\nargentina,south_america,-35,66,1072,67,23,920,buenos_aires,peso\naustralia,australasia,-23,-135,2967,909,13,268,canberra,australian_dollar\naustria,western_europe,47,-14,32,374,7,520,vienna,schilling\nbahamas,caribbean,24,74,4,404,0,190,nassau,bahamian_dollar\nbahrain,middle_east,26,-50,0,231,0,230,manama,dinar\nbangladesh,indian_subcontinent,24,-90,55,126,71,317,dacca,taka\nbarbados,caribbean,13,59,0,166,0,240,bridgetown,east_carribean_dollar\nbelgium,western_europe,51,-5,11,779,9,711,brussels,franc\nbelize,central_america,17,88,8,866,0,82,belize_town,?\nbhutan,indian_subcontinent,27,-90,19,305,1,150,thimphu,indian_rupee\nbolivia,south_america,-17,64,424,162,5,330,sucre,peso\nbotswana,southern_africa,-22,-24,219,815,0,650,gaborone,south_african_rand\nbrazil,south_america,-13,53,3286,470,105,137,brasilia,cruzeiro\nbulgaria,eastern_europe,43,-25,42,829,8,620,sofia,lev\nburma,southeast_east,21,-96,261,789,29,560,rangoon,kyat\nburundi,central_africa,-3,-30,10,739,3,600,bujumbura,franc\ncambodia,southeast_east,12,-105,69,898,7,640,phnom_penh,riel\ncameroon,west_africa,3,-12,183,568,6,170,yaounde,cfa_franc\ncanada,north_america,60,100,3851,809,22,47,ottawa,canadian_dollar\ncentral_african_republic,central_africa,7,-20,241,313,1,720,bangui,cfa_franc\nchad,central_africa,12,-17,495,752,3,870,n_djamena,cfa_franc\nchile,south_america,-35,71,286,396,10,230,santiago,escudo\nchina,far_east,30,-110,3691,502,840,0,peking,yuan\ncolombia,south_america,4,73,455,335,23,210,bogota,peso\ncongo,central_africa,-1,-16,132,46,1,1,brazzaville,cfa_franc\ncosta_rica,central_america,10,84,19,653,1,890,san_jose,colon\ncuba,caribbean,22,79,44,218,8,870,havana,peso\ncyprus,southern_europe,35,-33,3,572,0,660,nicosia,pound\nczechoslovakia,eastern_europe,49,-17,49,371,14,580,prague,koruna\ndahomey,west_africa,8,-2,43,483,2,910,porto_novo,cfa_franc\ndenmark,scandinavia,55,-9,16,615,5,130,copenhagen,krone\ndjibouti,east_africa,12,-42,9,71,0,45,djibouti,?\ndominican_republic,caribbean,19,70,18,704,4,430,santa_domingo,peso\neast_germany,eastern_europe,52,-12,40,646,16,980,east_berlin,ddr_mark\necuador,south_america,-2,78,105,685,6,730,quito,sucre\negypt,north_africa,28,-31,386,872,35,620,cairo,egyptian_pound\neire,western_europe,53,8,26,600,3,30,dublin,irish_pound\nel_salvador,central_america,14,89,8,260,3,860,san_salvador,colon\nequatorial_guinea,west_africa,1,-10,10,832,0,300,santa_isabel,peveta\nethiopia,east_africa,8,-40,457,142,26,80,addis_ababa,ethiopean_dollar\nfiji,australasia,-17,-179,7,55,0,550,suva,fiji_dollar\nfinland,scandinavia,65,-27,130,119,4,660,helsinki,markka\nfrance,western_europe,47,-3,212,973,52,350,paris,franc\nfrench_guiana,south_america,4,53,34,740,0,27,cayenne,?\ngabon,central_africa,0,-10,102,317,0,520,libreville,cfa_franc\ngambia,west_africa,13,16,4,3,0,490,banjul,dalasi\nghana,west_africa,6,1,92,100,9,360,accra,cedi\ngreece,southern_europe,40,-23,50,547,9,30,athens,drachma\ngrenada,caribbean,12,61,0,133,0,100,st_georges,east_caribbean_dollar\nguatemala,central_america,15,90,42,42,5,540,guatamala_city,quetzal\nguinea,west_africa,10,10,94,925,4,210,conakry,syli\nguinea_bissau,west_africa,12,15,13,948,0,510,bissau,pataca\nguyana,south_america,5,59,83,0,0,760,georgetown,guyana_dollar\nhaiti,caribbean,19,72,10,714,5,200,port_au_prince,gourde\nhonduras,central_america,14,86,43,277,2,780,tegucigalpa,lempira\nhungary,eastern_europe,47,-19,35,919,10,410,budapest,forint\niceland,western_europe,65,19,39,702,0,210,reykjavik,krona\nindia,indian_subcontinent,20,-80,1229,919,574,220,new_delhi,rupee\nindonesia,southeast_east,-5,-115,735,268,124,600,jakarta,rupiah\niran,middle_east,33,-53,636,363,32,1,tehran,rial\niraq,middle_east,33,-44,167,567,10,410,baghdad,dinar\nisrael,middle_east,32,-35,34,493,3,228,jerusalem,israeli_pound\nitaly,southern_europe,42,-13,116,303,55,262,rome,lira\nivory_coast,west_africa,7,5,124,503,4,640,abidjan,cfa_franc\njamaica,caribbean,18,77,4,411,1,980,kingston,jamaican_dollar\njapan,far_east,36,-136,143,574,108,710,tokyo,yen\njordan,middle_east,31,-36,32,297,2,560,amman,dinar\nkenya,east_africa,1,-38,224,960,12,480,nairobi,kenya_shilling\nkuwait,middle_east,29,-47,7,780,0,880,kuwait_city,kuwaiti_dinar\nlaos,southeast_east,18,-105,3,180,3,180,vientiane,kip\nlebanon,middle_east,34,-36,4,15,3,213,beirut,lebanese_pound\nlesotho,southern_africa,-30,-28,11,716,1,200,masero,rand\nliberia,west_africa,6,9,43,0,1,660,monrovia,us_dollar\nlibya,north_africa,28,-17,679,536,2,257,tripoli,libyan_dinar\nliechtenstein,western_europe,47,-9,0,62,0,23,vaduz,swiss_franc\nluxembourg,western_europe,50,-6,0,999,0,350,luxembourg,luxembourg_franc\nmalagasy,southern_africa,-20,-47,203,35,7,655,tananarive,ariary\nmalawi,southern_africa,-13,-34,45,747,4,790,zomba,kwacha\nmalaysia,southeast_east,5,-110,128,328,10,920,kuala_lumpa,malaysian_dollar\nmaldives,indian_subcontinent,2,-73,0,115,0,123,male,rupee\nmali,west_africa,15,10,464,873,5,380,bamako,mali_franc\nmalta,southern_europe,36,-14,0,122,0,319,valetta,pound\nmauritania,west_africa,21,10,419,229,1,260,nouakchott,ouguiya\nmauritius,southern_africa,-20,-57,0,787,0,870,port_louis,rupee\nmexico,central_america,20,100,761,601,54,300,mexico_city,peso\nmonaco,southern_europe,44,-7,0,1,0,30,monaco,french_franc\nmongolia,northern_asia,47,-103,604,247,1,360,ulan_bator,tighrik\nmorocco,north_africa,32,6,171,953,16,310,rabat,dirham\nmozambique,southern_africa,-19,-35,303,373,8,820,maputo,?\nnepal,indian_subcontinent,28,-84,54,362,12,20,katmandu,nepalese_rupee\nnetherlands,western_europe,52,-5,14,192,13,500,amsterdam,guilder\nnew_zealand,australasia,-40,-176,103,736,2,962,wellington,new_zealand_dollar\nnicaragua,central_america,12,85,57,143,2,10,managua,cordoba\nniger,west_africa,13,-10,489,206,4,300,niamey,cfa_franc\nnigeria,west_africa,8,-8,356,669,79,759,lagos,naira\nnorth_korea,far_east,40,-127,46,768,15,90,pvongvang,won\nnorway,scandinavia,64,-11,125,181,3,960,oslo,krone\noman,middle_east,23,-58,82,0,0,720,muscat,riyal_omani\npakistan,indian_subcontinent,30,-70,342,750,66,750,islamad,rupee\npanama,central_america,9,80,28,753,1,570,panama,balboa\npapua_new_guinea,australasia,-8,-145,183,540,2,580,port_harcourt,australian_dollar\nparaguay,south_america,-23,57,157,47,2,670,asuncion,guarani\nperu,south_america,-8,75,496,222,14,910,lima,sol\nphilippines,southeast_east,12,-123,115,707,40,220,quezon_city,piso\npoland,eastern_europe,52,-20,120,359,33,360,warsaw,zloty\nportugal,southern_europe,40,7,35,340,8,560,lisbon,escudo\nqatar,middle_east,25,-51,4,0,0,115,doha,riyal\nromania,eastern_europe,46,-25,91,699,5,690,bucharest,leu\nrwanda,central_africa,-2,-30,10,169,3,980,kigali,rwanda_franc\nsan_marino,southern_europe,44,-12,0,24,0,20,san_marino,italian_lira\nsaudi_arabia,middle_east,26,-44,873,0,8,100,riyadh,riyal\nsenegal,west_africa,14,14,76,124,4,230,dakar,cfa_franc\nseychelles,east_africa,-4,-55,0,40,0,156,victoria,rupee\nsierra_leone,west_africa,9,12,27,925,2,860,freetown,leone\nsingapore,southeast_east,1,-104,0,226,2,190,singapore,singapore_dollar\nsomalia,east_africa,7,-47,246,155,3,100,mogadishu,somali_shilling\nsouth_africa,southern_africa,-30,-25,471,819,23,720,pretoria,rand\nsouth_korea,far_east,36,-128,38,31,33,333,seoul,won\nsouth_yemen,middle_east,15,-48,111,0,1,600,aden,dinar\nsoviet_union,northern_asia,57,-80,8347,250,250,900,moscow,ruble\nspain,southern_europe,40,5,194,883,34,860,madrid,peseta\nsri_lanka,indian_subcontinent,7,-81,25,332,13,250,colombo,rupee\nsudan,central_africa,15,-30,967,491,16,900,khartoum,pound\nsurinam,south_america,4,56,55,0,0,208,paramaribo,?\nswaziland,southern_africa,-26,-31,6,705,0,460,mbabane,lilageru\nsweden,scandinavia,63,-15,173,665,8,144,stockholm,krona\nswitzerland,western_europe,46,-8,15,941,6,440,bern,franc\nsyria,middle_east,35,-38,71,498,6,895,damascus,syrian_pound\ntaiwan,far_east,23,-121,13,592,15,737,taipei,taiwan_dollar\ntanzania,east_africa,-7,-34,363,708,14,0,dar_es_salaam,tanzanian_shilling\nthailand,southeast_east,16,-102,198,455,39,950,bangkok,baht\ntogo,west_africa,8,-1,21,853,2,120,lome,cfa_franc\ntonga,australasia,-20,173,0,269,0,90,nukualofa,pa_anga\ntrinidad_and_tobago,caribbean,10,61,1,979,5,510,port_of_spain,trinidad_and_tobago_dollar\ntunisia,north_africa,33,-9,63,378,5,510,tunis,dinar\nturkey,middle_east,39,-36,301,380,37,930,ankara,lira\nuganda,east_africa,2,-32,91,134,10,810,kampala,uganda_shilling\nunited_arab_emirates,middle_east,24,-54,32,278,0,210,abu_dhabi,dirham\nunited_kingdom,western_europe,54,2,94,209,55,930,london,pound\nunited_states,north_america,37,96,3615,122,211,210,washington,dollar\nupper_volta,west_africa,12,2,105,869,5,740,ouagadougou,cfa_franc\nuruguay,south_america,-32,55,68,548,2,990,montevideo,peso\nvenezuela,south_america,8,65,352,143,11,520,caracas,bolivar\nvietnam,southeast_east,17,-107,126,436,41,850,hanoi,dong\nwest_germany,western_europe,52,-9,95,815,61,970,bonn,deutsche_mark\nwestern_samoa,australasia,-14,172,1,133,0,150,apia,tala\nyemen,middle_east,15,-44,75,289,1,600,sana,rial\nyugoslavia,southern_europe,44,-20,98,766,21,126,belgrade,dinar\nzaire,central_africa,-3,-23,905,63,23,560,kinshasa,zaire\nzambia,southern_africa,-15,-28,290,724,4,640,lusaka,kwacha\nzimbabwe,southern_africa,-20,-30,150,333,5,690,salisbury,rhodesian_dollar"

/-- `tests/integration/chat80/resources/contains.csv`, without empty lines. -/
def chatContains : String :=
  "whole,part\nafrica,central_africa\nafrica,east_africa\nafrica,north_africa\nafrica,southern_africa\nafrica,west_africa\namerica,caribbean\namerica,central_america\namerica,north_america\namerica,south_america\nasia,far_east\nasia,indian_subcontinent\nasia,middle_east\nasia,northern_asia\nasia,southeast_east\naustralasia,australia\naustralasia,fiji\naustralasia,new_zealand\naustralasia,papua_new_guinea\naustralasia,tonga\naustralasia,western_samoa\neurope,eastern_europe\neurope,scandinavia\neurope,southern_europe\neurope,western_europe\nscandinavia,denmark\nscandinavia,finland\nscandinavia,norway\nscandinavia,sweden\nwestern_europe,austria\nwestern_europe,belgium\nwestern_europe,eire\nwestern_europe,france\nwestern_europe,iceland\nwestern_europe,liechtenstein\nwestern_europe,luxembourg\nwestern_europe,netherlands\nwestern_europe,switzerland\nwestern_europe,united_kingdom\nwestern_europe,west_germany\neastern_europe,bulgaria\neastern_europe,czechoslovakia\neastern_europe,east_germany\neastern_europe,hungary\neastern_europe,poland\neastern_europe,romania\nsouthern_europe,albania\nsouthern_europe,andorra\nsouthern_europe,cyprus\nsouthern_europe,greece\nsouthern_europe,italy\nsouthern_europe,malta\nsouthern_europe,monaco\nsouthern_europe,portugal\nsouthern_europe,san_marino\nsouthern_europe,spain\nsouthern_europe,yugoslavia\nnorth_america,canada\nnorth_america,united_states\ncentral_america,belize\ncentral_america,costa_rica\ncentral_america,el_salvador\ncentral_america,guatemala\ncentral_america,honduras\ncentral_america,mexico\ncentral_america,nicaragua\ncentral_america,panama\ncaribbean,bahamas\ncaribbean,barbados\ncaribbean,cuba\ncaribbean,dominican_republic\ncaribbean,grenada\ncaribbean,haiti\ncaribbean,jamaica\ncaribbean,trinidad_and_tobago\nsouth_america,argentina\nsouth_america,bolivia\nsouth_america,brazil\nsouth_america,chile\nsouth_america,colombia\nsouth_america,ecuador\nsouth_america,french_guiana\nsouth_america,guyana\nsouth_america,paraguay\nsouth_america,peru\nsouth_america,surinam\nsouth_america,uruguay\nsouth_america,venezuela\nnorth_africa,algeria\nnorth_africa,egypt\nnorth_africa,libya\nnorth_africa,morocco\nnorth_africa,tunisia\nwest_africa,cameroon\nwest_africa,dahomey\nwest_africa,equatorial_guinea\nwest_africa,gambia\nwest_africa,ghana\nwest_africa,guinea\nwest_africa,guinea_bissau\nwest_africa,ivory_coast\nwest_africa,liberia\nwest_africa,mali\nwest_africa,mauritania\nwest_africa,niger\nwest_africa,nigeria\nwest_africa,senegal\nwest_africa,sierra_leone\nwest_africa,togo\nwest_africa,upper_volta\ncentral_africa,burundi\ncentral_africa,central_african_republic\ncentral_africa,chad\ncentral_africa,congo\ncentral_africa,gabon\ncentral_africa,rwanda\ncentral_africa,sudan\ncentral_africa,zaire\neast_africa,djibouti\neast_africa,ethiopia\neast_africa,kenya\neast_africa,seychelles\neast_africa,somalia\neast_africa,tanzania\neast_africa,uganda\nsouthern_africa,angola\nsouthern_africa,botswana\nsouthern_africa,lesotho\nsouthern_africa,malagasy\nsouthern_africa,malawi\nsouthern_africa,mauritius\nsouthern_africa,mozambique\nsouthern_africa,south_africa\nsouthern_africa,swaziland\nsouthern_africa,zambia\nsouthern_africa,zimbabwe\nmiddle_east,bahrain\nmiddle_east,iran\nmiddle_east,iraq\nmiddle_east,israel\nmiddle_east,jordan\nmiddle_east,kuwait\nmiddle_east,lebanon\nmiddle_east,oman\nmiddle_east,qatar\nmiddle_east,saudi_arabia\nmiddle_east,south_yemen\nmiddle_east,syria\nmiddle_east,turkey\nmiddle_east,united_arab_emirates\nmiddle_east,yemen\nindian_subcontinent,afghanistan\nindian_subcontinent,bangladesh\nindian_subcontinent,bhutan\nindian_subcontinent,india\nindian_subcontinent,maldives\nindian_subcontinent,nepal\nindian_subcontinent,pakistan\nindian_subcontinent,sri_lanka\nsoutheast_east,burma\nsoutheast_east,cambodia\nsoutheast_east,indonesia\nsoutheast_east,laos\nsoutheast_east,malaysia\nsoutheast_east,philippines\nsoutheast_east,singapore\nsoutheast_east,thailand\nsoutheast_east,vietnam\nfar_east,china\nfar_east,japan\nfar_east,north_korea\nfar_east,south_korea\nfar_east,taiwan\nnorthern_asia,mongolia\nnorthern_asia,soviet_union\nafghanistan,amu_darya\nangola,cubango\nangola,zambesi\nargentina,buenos_aires\nargentina,parana\naustralia,melbourne\naustralia,murray\naustralia,sydney\naustria,danube\naustria,vienna\nbangladesh,brahmaputra\nbelgium,brussels\nbrazil,amazon\nbrazil,parana\nbrazil,rio_de_janeiro\nbrazil,sao_paulo\nburma,irrawaddy\nburma,salween\ncambodia,mekong\ncanada,mackenzie\ncanada,montreal\ncanada,toronto\ncanada,yukon\nchile,santiago\nchina,amur\nchina,brahmaputra\nchina,canton\nchina,chungking\nchina,dairen\nchina,ganges\nchina,harbin\nchina,hwang_ho\nchina,indus\nchina,kowloon\nchina,mekong\nchina,mukden\nchina,peking\nchina,salween\nchina,shanghai\nchina,sian\nchina,tientsin\nchina,yangtze\ncolombia,orinoco\nczechoslovakia,danube\nczechoslovakia,elbe\nczechoslovakia,oder\neast_germany,berlin\neast_germany,elbe\negypt,cairo\negypt,nile\nfrance,paris\nfrance,rhone\nghana,volta\ngreece,athens\nguinea,niger_river\nguinea,senegal_river\nhungary,budapest\nhungary,danube\nindia,bombay\nindia,calcutta\nindia,delhi\nindia,ganges\nindia,hyderabad\nindia,indus\nindia,madras\nindonesia,jakarta\niran,tehran\niraq,euphrates\nitaly,milan\nitaly,naples\nitaly,rome\njapan,kobe\njapan,kyoto\njapan,nagoya\njapan,nanking\njapan,osaka\njapan,tokyo\njapan,yokohama\nlaos,mekong\nlesotho,orange\nmali,niger_river\nmali,senegal_river\nmexico,colorado\nmexico,mexico_city\nmexico,rio_grande\nmongolia,amur\nmongolia,yenisei\nmozambique,limpopo\nmozambique,zambesi\nnetherlands,rhine\nniger,niger_river\nnigeria,niger_river\npakistan,indus\npakistan,karachi\nparaguay,parana\nperu,amazon\nperu,lima\nphilippines,manila\npoland,oder\npoland,vistula\npoland,warsaw\nportugal,tagus\nromania,bucharest\nromania,danube\nsenegal,senegal_river\nsingapore,singapore_city\nsouth_africa,cubango\nsouth_africa,johannesburg\nsouth_africa,limpopo\nsouth_africa,orange\nsouth_korea,pusan\nsouth_korea,seoul\nsoviet_union,amu_darya\nsoviet_union,amur\nsoviet_union,don\nsoviet_union,kiev\nsoviet_union,lena\nsoviet_union,leningrad\nsoviet_union,moscow\nsoviet_union,ob\nsoviet_union,volga\nsoviet_union,yenisei\nspain,barcelona\nspain,madrid\nspain,tagus\nsudan,nile\nswitzerland,rhine\nswitzerland,rhone\nsyria,euphrates\nthailand,bangkok\nturkey,euphrates\nturkey,istanbul\nuganda,nile\nunited_kingdom,birmingham\nunited_kingdom,glasgow\nunited_kingdom,london\nunited_states,chicago\nunited_states,colorado\nunited_states,detroit\nunited_states,los_angeles\nunited_states,mississippi\nunited_states,new_york\nunited_states,philadelphia\nunited_states,rio_grande\nunited_states,yukon\nupper_volta,volta\nvenezuela,caracas\nvenezuela,orinoco\nvietnam,mekong\nvietnam,saigon\nwest_germany,danube\nwest_germany,elbe\nwest_germany,hamburg\nwest_germany,rhine\nyugoslavia,danube\nzaire,congo_river\nzambia,congo_river\nzambia,zambesi"

/-- `tests/integration/chat80/resources/borders.csv`, without empty lines. -/
def chatBorders : String :=
  "country_id1,country_id2\nalbania,greece\nalbania,yugoslavia\nalbania,mediterranean\nandorra,france\nandorra,spain\naustria,czechoslovakia\naustria,hungary\naustria,italy\naustria,liechtenstein\naustria,switzerland\naustria,west_germany\naustria,yugoslavia\nbelgium,france\nbelgium,luxembourg\nbelgium,netherlands\nbelgium,west_germany\nbelgium,atlantic\nbulgaria,greece\nbulgaria,romania\nbulgaria,turkey\nbulgaria,yugoslavia\nbulgaria,black_sea\ncyprus,mediterranean\nczechoslovakia,austria\nczechoslovakia,east_germany\nczechoslovakia,hungary\nczechoslovakia,poland\nczechoslovakia,soviet_union\nczechoslovakia,west_germany\ndenmark,west_germany\ndenmark,atlantic\ndenmark,baltic\neire,united_kingdom\neire,atlantic\nfinland,norway\nfinland,soviet_union\nfinland,sweden\nfinland,baltic\nfrance,andorra\nfrance,belgium\nfrance,italy\nfrance,luxembourg\nfrance,monaco\nfrance,spain\nfrance,switzerland\nfrance,west_germany\nfrance,atlantic\nfrance,mediterranean\neast_germany,czechoslovakia\neast_germany,poland\neast_germany,west_germany\neast_germany,baltic\ngreece,albania\ngreece,bulgaria\ngreece,turkey\ngreece,yugoslavia\ngreece,mediterranean\nhungary,austria\nhungary,czechoslovakia\nhungary,romania\nhungary,soviet_union\nhungary,yugoslavia\niceland,atlantic\nitaly,austria\nitaly,france\nitaly,san_marino\nitaly,switzerland\nitaly,yugoslavia\nitaly,mediterranean\nliechtenstein,austria\nliechtenstein,switzerland\nluxembourg,belgium\nluxembourg,france\nluxembourg,west_germany\nmalta,mediterranean\nmonaco,france\nmonaco,mediterranean\nnetherlands,belgium\nnetherlands,west_germany\nnetherlands,atlantic\nnorway,finland\nnorway,sweden\nnorway,soviet_union\nnorway,arctic_ocean\nnorway,atlantic\npoland,czechoslovakia\npoland,east_germany\npoland,soviet_union\npoland,baltic\nportugal,spain\nportugal,atlantic\nromania,bulgaria\nromania,hungary\nromania,soviet_union\nromania,yugoslavia\nromania,black_sea\nsan_marino,italy\nsan_marino,mediterranean\nspain,andorra\nspain,france\nspain,portugal\nspain,atlantic\nspain,mediterranean\nsweden,finland\nsweden,norway\nsweden,atlantic\nsweden,baltic\nswitzerland,austria\nswitzerland,france\nswitzerland,italy\nswitzerland,liechtenstein\nswitzerland,west_germany\nwest_germany,austria\nwest_germany,belgium\nwest_germany,czechoslovakia\nwest_germany,denmark\nwest_germany,east_germany\nwest_germany,france\nwest_germany,luxembourg\nwest_germany,netherlands\nwest_germany,switzerland\nwest_germany,atlantic\nwest_germany,baltic\nunited_kingdom,eire\nunited_kingdom,atlantic\nyugoslavia,albania\nyugoslavia,austria\nyugoslavia,bulgaria\nyugoslavia,greece\nyugoslavia,hungary\nyugoslavia,italy\nyugoslavia,romania\nyugoslavia,mediterranean\nafghanistan,china\nafghanistan,iran\nafghanistan,pakistan\nafghanistan,soviet_union\nbahrain,persian_gulf\nbangladesh,burma\nbangladesh,india\nbangladesh,indian_ocean\nbhutan,china\nbhutan,india\nburma,bangladesh\nburma,china\nburma,india\nburma,laos\nburma,thailand\nburma,indian_ocean\ncambodia,laos\ncambodia,thailand\ncambodia,vietnam\ncambodia,pacific\nchina,afghanistan\nchina,bhutan\nchina,burma\nchina,india\nchina,laos\nchina,mongolia\nchina,nepal\nchina,north_korea\nchina,pakistan\nchina,soviet_union\nchina,vietnam\nchina,pacific\nindia,bangladesh\nindia,bhutan\nindia,burma\nindia,china\nindia,nepal\nindia,pakistan\nindia,indian_ocean\nindonesia,malaysia\nindonesia,papua_new_guinea\nindonesia,indian_ocean\nindonesia,pacific\niran,afghanistan\niran,iraq\niran,pakistan\niran,soviet_union\niran,turkey\niran,caspian\niran,persian_gulf\niran,indian_ocean\niraq,iran\niraq,jordan\niraq,kuwait\niraq,saudi_arabia\niraq,syria\niraq,turkey\niraq,persian_gulf\nisrael,egypt\nisrael,jordan\nlaos,burma\nlaos,cambodia\nlaos,china\nlaos,thailand\nlaos,vietnam\nisrael,lebanon\nisrael,syria\nisrael,mediterranean\nisrael,red_sea\njapan,pacific\njordan,iraq\njordan,israel\njordan,saudi_arabia\njordan,syria\njordan,red_sea\nkuwait,iraq\nkuwait,saudi_arabia\nkuwait,persian_gulf\nlebanon,israel\nlebanon,syria\nlebanon,mediterranean\nmalaysia,indonesia\nmalaysia,singapore\nmalaysia,thailand\nmalaysia,indian_ocean\nmalaysia,pacific\nmaldives,indian_ocean\nmongolia,china\nmongolia,soviet_union\nnepal,china\nnepal,india\nnorth_korea,china\nnorth_korea,south_korea\nnorth_korea,soviet_union\nnorth_korea,pacific\noman,saudi_arabia\noman,united_arab_emirates\noman,south_yemen\noman,indian_ocean\npakistan,afghanistan\npakistan,china\npakistan,india\npakistan,iran\npakistan,indian_ocean\nphilippines,pacific\nqatar,saudi_arabia\nqatar,united_arab_emirates\nqatar,persian_gulf\nsaudi_arabia,iraq\nsaudi_arabia,jordan\nsaudi_arabia,kuwait\nsaudi_arabia,oman\nsaudi_arabia,qatar\nsaudi_arabia,south_yemen\nsaudi_arabia,united_arab_emirates\nsaudi_arabia,yemen\nsaudi_arabia,persian_gulf\nsaudi_arabia,red_sea\nsingapore,malaysia\nsingapore,pacific\nsouth_korea,north_korea\nsouth_korea,pacific\nsouth_yemen,oman\nsouth_yemen,saudi_arabia\nsouth_yemen,yemen\nsouth_yemen,indian_ocean\nsoviet_union,afghanistan\nsoviet_union,china\nsoviet_union,czechoslovakia\nsoviet_union,finland\nsoviet_union,hungary\nsoviet_union,iran\nsoviet_union,mongolia\nsoviet_union,north_korea\nsoviet_union,norway\nsoviet_union,poland\nsoviet_union,romania\nsoviet_union,turkey\nsoviet_union,arctic_ocean\nsoviet_union,baltic\nsoviet_union,black_sea\nsoviet_union,caspian\nsoviet_union,pacific\nsri_lanka,indian_ocean\nsyria,iraq\nsyria,israel\nsyria,jordan\nsyria,lebanon\nsyria,turkey\nsyria,mediterranean\ntaiwan,pacific\nthailand,burma\nthailand,cambodia\nthailand,laos\nthailand,malaysia\nthailand,indian_ocean\nthailand,pacific\nturkey,bulgaria\nturkey,greece\nturkey,iran\nturkey,iraq\nturkey,soviet_union\nturkey,syria\nturkey,black_sea\nturkey,mediterranean\nunited_arab_emirates,oman\nunited_arab_emirates,qatar\nunited_arab_emirates,saudi_arabia\nunited_arab_emirates,persian_gulf\nvietnam,cambodia\nvietnam,china\nvietnam,laos\nvietnam,pacific\nyemen,south_yemen\nyemen,saudi_arabia\nyemen,red_sea\nalgeria,libya\nalgeria,mali\nalgeria,mauritania\nalgeria,morocco\nalgeria,niger\nalgeria,tunisia\nalgeria,mediterranean\nangola,congo\nangola,south_africa\nangola,zaire\nangola,zambia\nangola,atlantic\nbotswana,south_africa\nbotswana,zimbabwe\nburundi,rwanda\nburundi,tanzania\nburundi,zaire\ncameroon,central_african_republic\ncameroon,chad\ncameroon,congo\ncameroon,equatorial_guinea\ncameroon,gabon\ncameroon,nigeria\ncameroon,atlantic\ncentral_african_republic,cameroon\ncentral_african_republic,chad\ncentral_african_republic,congo\ncentral_african_republic,sudan\ncentral_african_republic,zaire\nchad,cameroon\nchad,central_african_republic\nchad,libya\nchad,niger\nchad,nigeria\nchad,sudan\ncongo,angola\ncongo,cameroon\ncongo,central_african_republic\ncongo,gabon\ncongo,zaire\ncongo,atlantic\ndahomey,niger\ndahomey,nigeria\ndahomey,togo\ndahomey,upper_volta\ndahomey,atlantic\ndjibouti,ethiopia\ndjibouti,somalia\ndjibouti,indian_ocean\negypt,israel\negypt,libya\negypt,sudan\negypt,mediterranean\negypt,red_sea\nequatorial_guinea,cameroon\nequatorial_guinea,gabon\nequatorial_guinea,atlantic\nethiopia,djibouti\nethiopia,kenya\nethiopia,somalia\nethiopia,sudan\nethiopia,red_sea\ngabon,cameroon\ngabon,congo\ngabon,equatorial_guinea\ngabon,atlantic\ngambia,senegal\ngambia,atlantic\nghana,ivory_coast\nghana,togo\nghana,upper_volta\nghana,atlantic\nguinea,guinea_bissau\nguinea,ivory_coast\nguinea,liberia\nguinea,mali\nguinea,senegal\nguinea,sierra_leone\nguinea,atlantic\nguinea_bissau,guinea\nguinea_bissau,senegal\nguinea_bissau,atlantic\nivory_coast,ghana\nivory_coast,guinea\nivory_coast,liberia\nivory_coast,mali\nivory_coast,upper_volta\nivory_coast,atlantic\nkenya,ethiopia\nkenya,somalia\nkenya,sudan\nkenya,tanzania\nkenya,uganda\nkenya,indian_ocean\nlesotho,south_africa\nliberia,ivory_coast\nliberia,guinea\nliberia,sierra_leone\nliberia,atlantic\nlibya,algeria\nlibya,chad\nlibya,egypt\nlibya,niger\nlibya,sudan\nlibya,tunisia\nlibya,mediterranean\nmalagasy,indian_ocean\nmalawi,mozambique\nmalawi,tanzania\nmalawi,zambia\nmali,algeria\nmali,guinea\nmali,ivory_coast\nmali,mauritania\nmali,niger\nmali,senegal\nmali,upper_volta\nmauritania,algeria\nmauritania,mali\nmauritania,morocco\nmauritania,senegal\nmauritania,atlantic\nmauritius,indian_ocean\nmorocco,algeria\nmorocco,mauritania\nmorocco,atlantic\nmorocco,mediterranean\nmozambique,malawi\nmozambique,south_africa\nmozambique,swaziland\nmozambique,tanzania\nmozambique,zambia\nmozambique,zimbabwe\nmozambique,indian_ocean\nniger,algeria\nniger,chad\nniger,dahomey\nniger,libya\nniger,mali\nniger,nigeria\nniger,upper_volta\nnigeria,cameroon\nnigeria,chad\nnigeria,dahomey\nnigeria,niger\nnigeria,atlantic\nrwanda,burundi\nrwanda,tanzania\nrwanda,uganda\nrwanda,zaire\nsenegal,gambia\nsenegal,guinea\nsenegal,guinea_bissau\nsenegal,mali\nsenegal,mauritania\nsenegal,atlantic\nseychelles,indian_ocean\nsierra_leone,guinea\nsierra_leone,liberia\nsierra_leone,atlantic\nsomalia,djibouti\nsomalia,ethiopia\nsomalia,kenya\nsomalia,indian_ocean\nsouth_africa,angola\nsouth_africa,botswana\nsouth_africa,lesotho\nsouth_africa,mozambique\nsouth_africa,swaziland\nsouth_africa,zambia\nsouth_africa,zimbabwe\nsouth_africa,atlantic\nsouth_africa,indian_ocean\nsudan,chad\nsudan,central_african_republic\nsudan,egypt\nsudan,ethiopia\nsudan,kenya\nsudan,libya\nsudan,uganda\nsudan,zaire\nsudan,red_sea\nswaziland,mozambique\nswaziland,south_africa\ntanzania,burundi\ntanzania,kenya\ntanzania,malawi\ntanzania,mozambique\ntanzania,rwanda\ntanzania,uganda\ntanzania,zaire\ntanzania,zambia\ntanzania,indian_ocean\ntogo,dahomey\ntogo,ghana\ntogo,upper_volta\ntogo,atlantic\ntunisia,algeria\ntunisia,libya\ntunisia,mediterranean\nuganda,kenya\nuganda,rwanda\nuganda,sudan\nuganda,tanzania\nuganda,zaire\nupper_volta,dahomey\nupper_volta,ghana\nupper_volta,ivory_coast\nupper_volta,mali\nupper_volta,niger\nupper_volta,togo\nzaire,angola\nzaire,burundi\nzaire,central_african_republic\nzaire,congo\nzaire,rwanda\nzaire,sudan\nzaire,tanzania\nzaire,uganda\nzaire,zambia\nzaire,atlantic\nzambia,angola\nzambia,malawi\nzambia,mozambique\nzambia,south_africa\nzambia,tanzania\nzambia,zaire\nzambia,zimbabwe\nzimbabwe,botswana\nzimbabwe,mozambique\nzimbabwe,south_africa\nzimbabwe,zambia\nargentina,bolivia\nargentina,brazil\nargentina,chile\nargentina,paraguay\nargentina,uruguay\nargentina,atlantic\nbahamas,atlantic\nbarbados,atlantic\nbelize,guatemala\nbelize,mexico\nbelize,atlantic\nbolivia,argentina\nbolivia,brazil\nbolivia,chile\nbolivia,paraguay\nbolivia,peru\nbrazil,argentina\nbrazil,bolivia\nbrazil,colombia\nbrazil,french_guiana\nbrazil,guyana\nbrazil,paraguay\nbrazil,peru\nbrazil,surinam\nbrazil,uruguay\nbrazil,venezuela\nbrazil,atlantic\ncanada,united_states\ncanada,arctic_ocean\ncanada,atlantic\ncanada,pacific\nchile,argentina\nchile,bolivia\nchile,peru\nchile,pacific\ncolombia,brazil\ncolombia,ecuador\ncolombia,panama\ncolombia,peru\ncolombia,venezuela\ncolombia,atlantic\ncolombia,pacific\ncosta_rica,nicaragua\ncosta_rica,panama\ncosta_rica,atlantic\ncosta_rica,pacific\ncuba,atlantic\ndominican_republic,haiti\ndominican_republic,atlantic\necuador,colombia\necuador,peru\necuador,pacific\nel_salvador,guatemala\nel_salvador,honduras\nel_salvador,pacific\nfrench_guiana,brazil\nfrench_guiana,surinam\ngreenland,arctic_ocean\ngreenland,atlantic\ngrenada,atlantic\nguatemala,belize\nguatemala,el_salvador\nguatemala,honduras\nguatemala,mexico\nguatemala,atlantic\nguatemala,pacific\nguyana,brazil\nguyana,surinam\nguyana,venezuela\nguyana,atlantic\nhaiti,dominican_republic\nhaiti,atlantic\nhonduras,el_salvador\nhonduras,guatemala\nhonduras,nicaragua\nhonduras,atlantic\nhonduras,pacific\njamaica,atlantic\nmexico,belize\nmexico,guatemala\nmexico,united_states\nmexico,atlantic\nmexico,pacific\nnicaragua,costa_rica\nnicaragua,honduras\nnicaragua,atlantic\nnicaragua,pacific\npanama,colombia\npanama,costa_rica\npanama,atlantic\npanama,pacific\nparaguay,argentina\nparaguay,bolivia\nparaguay,brazil\nperu,bolivia\nperu,brazil\nperu,chile\nperu,colombia\nperu,ecuador\nperu,pacific\nsurinam,brazil\nsurinam,french_guiana\nsurinam,guyana\ntrinidad_and_tobago,atlantic\nunited_states,canada\nunited_states,mexico\nunited_states,arctic_ocean\nunited_states,atlantic\nunited_states,pacific\nuruguay,argentina\nuruguay,brazil\nuruguay,atlantic\nvenezuela,brazil\nvenezuela,colombia\nvenezuela,guyana\nvenezuela,atlantic\naustralia,indian_ocean\naustralia,pacific\nfiji,pacific\nnew_zealand,pacific\npapua_new_guinea,indonesia\npapua_new_guinea,pacific\ntonga,pacific\nwestern_samoa,pacific\nantarctica,southern_ocean\narctic_ocean,atlantic\narctic_ocean,pacific\natlantic,arctic_ocean\natlantic,indian_ocean\natlantic,pacific\natlantic,southern_ocean\natlantic,baltic\natlantic,mediterranean\nindian_ocean,atlantic\nindian_ocean,pacific\nindian_ocean,southern_ocean\nindian_ocean,persian_gulf\nindian_ocean,red_sea\npacific,arctic_ocean\npacific,atlantic\npacific,indian_ocean\npacific,southern_ocean\nsouthern_ocean,atlantic\nsouthern_ocean,indian_ocean\nsouthern_ocean,pacific\nbaltic,atlantic\nblack_sea,mediterranean\nmediterranean,atlantic\nmediterranean,black_sea\npersian_gulf,indian_ocean\nred_sea,indian_ocean\narctic_ocean,norway\narctic_ocean,soviet_union\narctic_ocean,canada\narctic_ocean,greenland\narctic_ocean,united_states\natlantic,belgium\natlantic,denmark\natlantic,eire\natlantic,france\natlantic,iceland\natlantic,netherlands\natlantic,norway\natlantic,portugal\natlantic,spain\natlantic,sweden\natlantic,west_germany\natlantic,united_kingdom\natlantic,angola\natlantic,cameroon\natlantic,congo\natlantic,dahomey\natlantic,equatorial_guinea\natlantic,gabon\natlantic,gambia\natlantic,ghana\natlantic,guinea\natlantic,guinea_bissau\natlantic,ivory_coast\natlantic,liberia\natlantic,mauritania\natlantic,morocco\natlantic,nigeria\natlantic,senegal\natlantic,sierra_leone\natlantic,south_africa\natlantic,togo\natlantic,zaire\natlantic,argentina\natlantic,bahamas\natlantic,barbados\natlantic,belize\natlantic,brazil\natlantic,canada\natlantic,colombia\natlantic,costa_rica\natlantic,cuba\natlantic,dominican_republic\natlantic,french_guiana\natlantic,greenland\natlantic,grenada\natlantic,guatemala\natlantic,guyana\natlantic,haiti\natlantic,honduras\natlantic,jamaica\natlantic,mexico\natlantic,nicaragua\natlantic,panama\natlantic,surinam\natlantic,trinidad_and_tobago\natlantic,united_states\natlantic,uruguay\natlantic,venezuela\nindian_ocean,bangladesh\nindian_ocean,burma\nindian_ocean,india\nindian_ocean,indonesia\nindian_ocean,iran\nindian_ocean,malaysia\nindian_ocean,maldives\nindian_ocean,oman\nindian_ocean,pakistan\nindian_ocean,south_yemen\nindian_ocean,sri_lanka\nindian_ocean,thailand\nindian_ocean,djibouti\nindian_ocean,kenya\nindian_ocean,malagasy\nindian_ocean,mauritius\nindian_ocean,mozambique\nindian_ocean,seychelles\nindian_ocean,somalia\nindian_ocean,south_africa\nindian_ocean,tanzania\nindian_ocean,australia\npacific,cambodia\npacific,china\npacific,indonesia\npacific,japan\npacific,malaysia\npacific,north_korea\npacific,philippines\npacific,singapore\npacific,south_korea\npacific,soviet_union\npacific,taiwan\npacific,thailand\npacific,vietnam\npacific,canada\npacific,chile\npacific,colombia\npacific,costa_rica\npacific,ecuador\npacific,el_salvador\npacific,guatemala\npacific,honduras\npacific,mexico\npacific,nicaragua\npacific,panama\npacific,peru\npacific,united_states\npacific,australia\npacific,fiji\npacific,new_zealand\npacific,papua_new_guinea\npacific,tonga\npacific,western_samoa\nsouthern_ocean,antarctica\nbaltic,denmark\nbaltic,finland\nbaltic,east_germany\nbaltic,poland\nbaltic,sweden\nbaltic,west_germany\nbaltic,soviet_union\nblack_sea,bulgaria\nblack_sea,romania\nblack_sea,soviet_union\nblack_sea,turkey\ncaspian,iran\ncaspian,soviet_union\nmediterranean,albania\nmediterranean,cyprus\nmediterranean,france\nmediterranean,greece\nmediterranean,italy\nmediterranean,malta\nmediterranean,monaco\nmediterranean,san_marino\nmediterranean,spain\nmediterranean,yugoslavia\nmediterranean,israel\nmediterranean,lebanon\nmediterranean,syria\nmediterranean,turkey\nmediterranean,algeria\nmediterranean,egypt\nmediterranean,libya\nmediterranean,morocco\nmediterranean,tunisia\npersian_gulf,bahrain\npersian_gulf,iran\npersian_gulf,iraq\npersian_gulf,kuwait\npersian_gulf,qatar\npersian_gulf,saudi_arabia\npersian_gulf,united_arab_emirates\nred_sea,israel\nred_sea,jordan\nred_sea,saudi_arabia\nred_sea,yemen\nred_sea,egypt\nred_sea,ethiopia\nred_sea,sudan"

/-- `tests/integration/cooper/inferences.pl`. -/
def cooperInferences : String :=
  "# sentence-level predicates\n\n# teach\nsentence_tell(Atoms) :- store(Atoms), store(output_type('ok')).\nsentence_learn(Head, Body) :- learn_rule(Head, Body), store(output_type('ok')).\n\n# check\nsentence_check(Truth) :- store(output_type(Truth)).\n\n"

/-- `tests/integration/cooper/test.py:119-154`. -/
def cooperTests1 : List (String × Value) := [
  ("magnesium is a metal", .str "OK"),
  ("magnesium burns rapidly", .str "OK"),
  ("magnesium oxide is a white metallic oxide", .str "OK"),
  ("oxygen is a nonmetal", .str "OK"),
  ("ferrous sulfide is a dark-gray compound that is brittle", .str "OK"),
  ("iron is a metal", .str "OK"),
  ("sulfur is a nonmetal", .str "OK"),
  ("gasoline is a fuel", .str "OK"),
  ("gasoline is combustable", .str "OK"),
  ("combustable things burn", .str "OK"),
  ("fuels are combustable", .str "OK"),
  ("ice is a solid", .str "OK"),
  ("steam is a gas", .str "OK"),
  ("magnesium is an element", .str "OK"),
  ("iron is an element", .str "OK"),
  ("sulfur is an element", .str "OK"),
  ("oxygen is an element", .str "OK"),
  ("nitrogen is an element", .str "OK"),
  ("hydrogen is an element", .str "OK"),
  ("carbon is an element", .str "OK"),
  ("copper is an element", .str "OK"),
  ("salt is a compound", .str "OK"),
  ("sugar is a compound", .str "OK"),
  ("water is a compound", .str "OK"),
  ("sulfuric acid is a compound", .str "OK"),
  ("elements are not compounds", .str "OK"),
  ("salt is sodium chloride", .str "OK"),
  ("sodium chloride is salt", .str "OK"),
  ("oxides are compounds", .str "OK"),
  ("metals are metallic", .str "OK"),
  ("no metal is a nonmetal", .str "OK"),
  ("dark-gray things are not white", .str "OK"),
  ("a solid is not a gas", .str "OK"),
  ("any thing that burns rapidly burns", .str "OK")]

/-- `tests/integration/cooper/test.py:156-180`. -/
def cooperTests2 : List (String × Value) := [
  ("magnesium is a metal", .str "True"),
  ("magnesium is not a metal", .str "False"),
  ("magnesium is a nonmetal", .str "False"),
  ("magnesium is not a nonmetal", .str "True"),
  ("magnesium is a metal that burns rapidly", .str "True"),
  ("magnesium is magnesium", .str "True"),
  ("some oxides are white", .str "True"),
  ("no oxide is white", .str "False"),
  ("oxides are not white", .str "False"),
  ("magnesium oxide is an oxide", .str "True"),
  ("every oxide is an oxide", .str "True"),
  ("ferrous sulfide is dark-gray", .str "True"),
  ("ferrous sulfide is a brittle compound", .str "True"),
  ("ferrous sulfide is not brittle", .str "False"),
  ("some sulfides are brittle", .str "True"),
  ("ferrous sulfide is not a compound that is not dark-gray", .str "True"),
  ("anything that is not a compound is not ferrous sulfide", .str "True"),
  ("no dark-gray thing is a sulfide", .str "False"),
  ("ferrous sulfide is white", .str "False"),
  ("sodium chloride is a compound", .str "True"),
  ("salt is an element", .str "False"),
  ("sodium chloride is an element", .str "False"),
  ("gasoline is a fuel that burns", .str "True")]

/-- `tests/integration/hello_world/inferences.pl`. -/
def helloInferences : String :=
  "in(A, B) :- contains(B, A).\nin(A, B) :- contains(C, A), in(C, B).\n"

/-- `tests/integration/hello_world/intents.pl`. -/
def helloIntents : String :=
  "# intent predicates\n\nintent_hello() :-\n    store(output_type('hi')).\n\nintent_list(E1, Sem) :-\n    find_all(E1, Sem, Elements),\n    store(output_type('list'), output_list(Elements)).\n"

/-- `tests/integration/hello_world/test.py:86-89`. -/
def helloTests : List (String × Value) := [
  ("Hello world", .str "Hi there!"),
  ("What rivers are there?", .str "amazon, amu_darya, amur, brahmaputra, colorado, congo_river, cubango, danube, don, elbe, euphrates, ganges, hwang_ho, indus, irrawaddy, lena, limpopo, mackenzie, mekong, mississippi, murray, niger_river, nile, ob, oder, orange, orinoco, parana, rhine, rhone, rio_grande, salween, senegal_river, tagus, vistula, volga, volta, yangtze, yenisei, yukon, zambesi")]

/-- `tests/integration/hello_world/resources/river.csv`, without empty lines. -/
def helloRiver : String :=
  "id,flows_through\namazon,atlantic|brazil|peru\namu_darya,aral_sea|soviet_union|afghanistan\namur,pacific|soviet_union|china|mongolia\nbrahmaputra,indian_ocean|bangladesh|china\ncolorado,pacific|mexico|united_states\ncongo_river,atlantic|zaire|zambia\ncubango,botswana|south_africa|angola\ndanube,black_sea|romania|yugoslavia|hungary|czechoslovakia|austria|west_germany\ndon,black_sea|soviet_union\nelbe,atlantic|west_germany|east_germany|czechoslovakia\neuphrates,persian_gulf|iraq|syria|turkey\nganges,indian_ocean|india|china\nhwang_ho,pacific|china\nindus,indian_ocean|pakistan|india|china\nirrawaddy,indian_ocean|burma\nlena,arctic_ocean|soviet_union\nlimpopo,indian_ocean|mozambique|south_africa\nmackenzie,arctic_ocean|canada\nmekong,pacific|vietnam|cambodia|laos|china\nmississippi,atlantic|united_states\nmurray,indian_ocean|australia\nniger_river,atlantic|nigeria|niger|mali|guinea\nnile,mediterranean|egypt|sudan|uganda\nob,arctic_ocean|soviet_union\noder,baltic|poland|czechoslovakia\norange,atlantic|south_africa|lesotho\norinoco,atlantic|venezuela|colombia\nparana,atlantic|argentina|paraguay|brazil\nrhine,atlantic|netherlands|west_germany|switzerland\nrhone,mediterranean|france|switzerland\nrio_grande,atlantic|mexico|united_states\nsalween,indian_ocean|burma|china\nsenegal_river,atlantic|senegal|mali|guinea\ntagus,atlantic|portugal|spain\nvistula,baltic|poland\nvolga,black_sea|soviet_union\nvolta,atlantic|ghana|upper_volta\nyangtze,pacific|china\nyenisei,arctic_ocean|soviet_union|mongolia\nyukon,pacific|united_states|canada\nzambesi,indian_ocean|mozambique|zambia|angola"

end Verif.Runs
